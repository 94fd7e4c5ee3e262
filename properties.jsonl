{"id": "C01", "title": "Heap pop returns a minimum of the live entries", "statement": "After any sequence of push, set and pop calls, pop hands back the address and value of a live entry whose value is <= the value of every other live entry, removes exactly that entry, and changes no other; peek reports the same minimum; pop and peek on an empty heap throw.", "quantifier": "all capacities, all finite call sequences, all (address, value) arguments over a linear order, handles taken from earlier pushes that are still live", "why_tests_cant": "the order violation depends on the whole call history and the heap shape it built", "anchors": ["code/cpp/include/skfmm/heap.cpp: push, pop, set, peek, empty, _siftUp, _siftDown"]}
{"id": "C02", "title": "Heap handles stay attached to their entry", "statement": "The handle returned by push names the same entry until that entry is popped: set(handle, v) changes the value of that entry and of no other, whatever sifting happened in between.", "quantifier": "all call sequences, all live handles, all new values (raising or lowering)", "why_tests_cant": "handles are tracked through back-pointers that every sift rewrites; a stale one shows only after particular histories", "anchors": ["code/cpp/include/skfmm/heap.cpp: push, set, pop, _siftUp, _siftDown"]}
{"id": "C03", "title": "Heap calls stay inside their buffers", "statement": "push, pop, set and peek never read or write outside the four arrays allocated with the capacity given to the constructor; a push that does not fit throws instead.", "quantifier": "all capacities and all call sequences", "why_tests_cant": "an overrun needs a specific mix of pushes and pops and may go unnoticed when it lands in slack memory", "anchors": ["code/cpp/include/skfmm/heap.cpp: push (54-67), constructor (18-36)"]}
{"id": "C04", "title": "Signed distance keeps the sign of the level set", "statement": "distance(phi) returns, for every cell, a value with the same sign as phi in that cell (zero where phi is zero), so no cell changes side when a level set is re-distanced.", "quantifier": "all grid shapes in 1D and 2D, all spacings, all real fields phi", "why_tests_cant": "the value of a cell is the result of an arbitrarily long chain of updates from the interface", "anchors": ["code/cpp/src/multi/pfmm.cpp: distance", "code/cpp/include/skfmm/distance_marcher.cpp: initalizeFrozen, updatePointOrderOne, solveQuadratic", "code/cpp/include/skfmm/base_marcher.cpp: march, initalizeNarrow, solve"]}
{"id": "C05", "title": "Fast marching terminates, reaches every cell and never overflows its queue", "statement": "If phi has a zero or a sign change between neighbours, distance(phi) terminates, no cell is inserted in the queue twice, the queue capacity (number of cells) is never exceeded, and every cell receives a finite distance.", "quantifier": "all grid shapes, spacings and fields", "why_tests_cant": "termination and reachability are statements about every run; the discriminant test that could silently skip a cell depends on the order in which cells were frozen", "anchors": ["code/cpp/include/skfmm/base_marcher.cpp: march, initalizeNarrow, solve", "code/cpp/include/skfmm/distance_marcher.cpp: updatePointOrderOne, solveQuadratic", "code/cpp/include/skfmm/heap.cpp: push"]}
{"id": "C06", "title": "Fast marching accepts cells in order of distance and solves the discrete eikonal equation", "statement": "Cells are accepted in non-decreasing absolute distance, and the value given to every non-interface cell is the larger root of the upwind first-order eikonal equation sum_d ((r - v_d)/dx_d)^2 = 1 over its accepted neighbours.", "quantifier": "all grids, spacings, fields and tie-breaking orders", "why_tests_cant": "causality is a global invariant of the marching loop", "anchors": ["code/cpp/include/skfmm/base_marcher.cpp: solve", "code/cpp/include/skfmm/distance_marcher.cpp: updatePointOrderOne, solveQuadratic"]}
{"id": "C07", "title": "Interface cells get the linear-interpolation distance", "statement": "A cell next to a sign change receives the least, over axes, of dx*|phi_i|/(|phi_i|+|phi_n|) with the sign of phi_i; the magnitude is positive and smaller than the largest spacing; cells where phi is exactly zero keep zero.", "quantifier": "all fields, spacings and positions including grid edges", "why_tests_cant": "needs every combination of neighbour signs and magnitudes", "anchors": ["code/cpp/include/skfmm/distance_marcher.cpp: initalizeFrozen (90-151)"]}
{"id": "C08", "title": "Re-distancing never changes which material a cell belongs to", "statement": "renormalize_levelsets leaves get_material_index of every cell unchanged.", "quantifier": "all states and all level-set fields, including fields that have no interface in the domain", "why_tests_cant": "a material that has left the domain is a rare history; the wrong result is silently plausible", "anchors": ["code/cpp/src/multi/functions.cpp: renormalize_levelsets", "code/cpp/src/multi/pfmm.cpp: distance", "code/cpp/src/system/objects / solvers/iterator.cpp: get_material_index use", "code/cpp/include/skfmm/base_marcher.cpp: march"]}
{"id": "C09", "title": "Boundary padding copies the interior unchanged", "statement": "boundaries writes every interior cell of the padded array with the corresponding cell of u, for every boundary type and in one and two dimensions.", "quantifier": "all grid sizes, all fields, all boundary-type combinations", "why_tests_cant": "index arithmetic over all sizes and types", "anchors": ["code/cpp/src/etc/grid.cpp: boundaries, boundaries1, boundaries2"]}
{"id": "C10", "title": "Every ghost cell is the image of a definite interior cell", "statement": "Each padded cell, corners included, equals the per-axis wall map applied to one interior cell: the nearest edge cell for transmissive walls, the wrapped cell for periodic walls and the mirror cell for slip, stick, moving and symmetric walls. With periodic walls the padded array is the periodic extension of u.", "quantifier": "all nx, ny >= N, all boundary-type combinations, all fields", "why_tests_cant": "the corner cells come from two passes that read each other's output; sizes are unbounded", "anchors": ["code/cpp/src/etc/grid.cpp: boundaries1 (12-125), boundaries2 (127-145)"]}
{"id": "C11", "title": "Wall ghosts keep density, internal energy and volume ratio and impose the wall velocity", "statement": "For slip, stick, moving and symmetric walls the ghost state has the density, pressure and |det A| of its mirror cell; the mean of ghost and mirror normal velocity is the wall velocity (0, or 1 along x for a moving wall).", "quantifier": "all states with non-zero density, all wall types and directions", "why_tests_cant": "algebraic identity over all states", "anchors": ["code/cpp/src/etc/grid.cpp: boundaries1 (52-122)"]}
{"id": "C12", "title": "extend_mask marks exactly the masked cells and their face neighbours", "statement": "The extended mask of an interior cell is true iff the cell or one of its face neighbours is in the input mask; the one-cell ghost layer contains every ghost face-adjacent to a masked cell.", "quantifier": "all grid sizes in 1D and 2D and all masks", "why_tests_cant": "all index combinations at edges and corners", "anchors": ["code/cpp/src/etc/grid.cpp: extend_mask (176-230)"]}
{"id": "C13", "title": "Worker chunks partition the grid", "statement": "For every row count and every number of threads the row ranges handed to the workers are disjoint, in order and cover all rows exactly once, so no two workers write the same cell and none is left out.", "quantifier": "all nx >= 0, all thread counts >= 1 including more threads than rows", "why_tests_cant": "thread counts and sizes are unbounded; an off-by-one shows only at particular divisors", "anchors": ["code/cpp/src/solvers/steppers.cpp: ader_stepper_para (24-48), split_stepper_para (68-94)"]}
{"id": "C14", "title": "Parallel stepping equals serial stepping", "statement": "ader_stepper_para and split_stepper_para return the same field as ader_stepper and split_stepper whatever the number of threads.", "quantifier": "all fields, masks, sizes, thread counts and interleavings", "why_tests_cant": "schedules and thread counts cannot be enumerated", "anchors": ["code/cpp/src/solvers/steppers.cpp", "code/cpp/src/solvers/weno/weno.cpp: weno1, weno2, coeffs", "code/cpp/src/solvers/fv/fv.cpp"]}
{"id": "C15", "title": "The finite-volume update is conservative", "statement": "With every cell active, the sum over cells of each conserved component (density, energy, momenta) changes in one step only by the boundary fluxes and the cell sources: every interior face contribution cancels.", "quantifier": "all grid sizes in 1D and 2D, all predictor data, all flux choices, all time-quadrature sizes", "why_tests_cant": "sums over grids of every size and arbitrary data", "anchors": ["code/cpp/src/solvers/fv/fv.cpp: interfs1_inner, interfs2_inner, centers1_inner, centers2_inner", "code/cpp/src/solvers/fv/fluxes.cpp: Bint", "code/cpp/src/system/equations.cpp: Bdot"]}
{"id": "C16", "title": "A uniform equilibrium state is a fixed point of the scheme", "statement": "If all cells hold the same state and its source vanishes, the reconstruction, predictor and finite-volume update return exactly that state.", "quantifier": "all grid sizes, all states, all time steps", "why_tests_cant": "depends on exact cancellation of all reconstruction, predictor and flux terms for every state", "anchors": ["code/cpp/src/solvers/weno/weno.cpp", "code/cpp/src/solvers/dg/dg1.cpp", "code/cpp/src/solvers/fv/fv.cpp", "code/cpp/src/solvers/steppers.cpp: ader_stepper"]}
{"id": "C17", "title": "Cells outside the mask are never written by the finite-volume update", "statement": "fv_launcher leaves u untouched in every cell whose mask entry is false.", "quantifier": "all masks, sizes and data", "why_tests_cant": "all masks", "anchors": ["code/cpp/src/solvers/fv/fv.cpp: centers1_inner, interfs1_inner, centers2_inner, interfs2_inner"]}
{"id": "C18", "title": "Interface fluxes are consistent", "statement": "For equal left and right states the Rusanov, Roe and Osher interface terms equal twice the physical flux in every component, and the path-conservative term vanishes.", "quantifier": "all states, directions and material parameters, all compile-time feature sets", "why_tests_cant": "identity over all states and all feature sets", "anchors": ["code/cpp/src/solvers/fv/fluxes.cpp: Bint, D_RUS, D_ROE, D_OSH", "code/cpp/src/system/equations.cpp: flux"]}
{"id": "C19", "title": "WENO reconstruction is conservative", "statement": "The mean over the cell of the reconstructed polynomial equals the cell average that was passed in, for every variable and every cell.", "quantifier": "all orders N, all data, all cell positions for which at least one stencil is admissible", "why_tests_cant": "nonlinear weights depend on all data", "anchors": ["code/cpp/src/solvers/weno/weno.cpp: coeffs (17-73), weno1", "code/cpp/src/solvers/weno/weno_matrices.cpp: coefficient_matrices"]}
{"id": "C20", "title": "WENO reproduces polynomials", "statement": "If the cell averages come from one polynomial of degree < N, the reconstruction is that polynomial at all nodes; in particular constants are reproduced.", "quantifier": "all orders N, all polynomials of degree < N, all cell positions", "why_tests_cant": "quantifies over all polynomials and weights", "anchors": ["code/cpp/src/solvers/weno/weno.cpp: coeffs, weno1, weno2", "code/cpp/src/solvers/weno/weno_matrices.cpp"]}
{"id": "C21", "title": "WENO weights are strictly positive and the oscillation indicator is a semi-norm", "statement": "The oscillation indicator matrix is the Gram matrix of all derivatives of the basis, hence w^T S w >= 0 and every stencil weight is finite and positive.", "quantifier": "all orders, all stencil coefficients, whatever the memory held before the matrix was built", "why_tests_cant": "uninitialised storage gives a right answer on most runs", "anchors": ["code/cpp/src/solvers/weno/weno.cpp: weight (4-15)", "code/cpp/src/solvers/weno/weno_matrices.cpp: oscillation_indicator (31-42)"]}
{"id": "C22", "title": "WENO is defined on every grid", "statement": "Every cell of every grid has at least one admissible stencil, so the weight normalisation never divides by zero.", "quantifier": "all grid sizes, all positions, both values of the corner option, and all chunk sizes produced by the parallel steppers", "why_tests_cant": "a 0/0 on one-row chunks appears only with particular thread counts", "anchors": ["code/cpp/src/solvers/weno/weno.cpp: coeffs (17-73), weno2 (83-124)", "code/cpp/src/solvers/steppers.cpp: ader_stepper_para"]}
{"id": "C23", "title": "Polynomial product evaluates to the product", "statement": "poly multiplication of coefficient vectors evaluates at every point to the product of the evaluations, and is commutative and associative.", "quantifier": "all coefficient vectors of positive length, all points", "why_tests_cant": "identity over all polynomials", "anchors": ["code/cpp/src/scipy/poly.cpp: multiply, evaluate, operator*"]}
{"id": "C24", "title": "Polynomial differentiation and integration are exact inverses", "statement": "diff is the derivative of eval, intt is an antiderivative vanishing at 0, diff undoes intt, and repeated diff is the iterated derivative; differentiating an empty vector is an error.", "quantifier": "all coefficient vectors, all points, all repetition counts up to the length", "why_tests_cant": "identity over all polynomials", "anchors": ["code/cpp/src/scipy/poly.cpp: differentiate, integrate, diff, intt, eval"]}
{"id": "C25", "title": "Legendre series evaluation and differentiation are correct", "statement": "legval(x, c) is the sum of c_k P_k(x) with P_k the Legendre polynomials, and legval(x, legder(c)) is its derivative in x.", "quantifier": "all coefficient vectors of admissible length and all points", "why_tests_cant": "identity over all series lengths", "anchors": ["code/cpp/src/scipy/legendre.cpp: legval (5-62), legder (97-134)"]}
{"id": "C26", "title": "Gauss-Legendre nodes and weights integrate polynomials exactly", "statement": "Given the roots of the degree-N Legendre polynomial, leggauss returns weights that sum to 2, are symmetric, and integrate every polynomial of degree < 2N exactly on [-1,1]; scaled_nodes and scaled_weights do so on [0,1].", "quantifier": "all N >= 1 and all polynomials of degree < 2N", "why_tests_cant": "tests check a few N and monomials", "anchors": ["code/cpp/src/scipy/legendre.cpp: leggauss (136-197), legcompanion", "code/cpp/src/solvers/poly/basis.cpp: scaled_nodes, scaled_weights"]}
{"id": "C27", "title": "The nodal basis is cardinal and its end and derivative tables are exact", "statement": "lagrange(nodes) gives polynomials that are 1 at their own node and 0 at the others; the end-value and derivative tables applied to the nodal values of any polynomial of degree < N give its values at 0 and 1 and its derivative at the nodes.", "quantifier": "all N, all sets of distinct nodes, all polynomials of degree < N", "why_tests_cant": "all N and node sets", "anchors": ["code/cpp/src/solvers/poly/basis.cpp: lagrange, basis_polys, end_values, derivative_values"]}
{"id": "C28", "title": "kron is the Kronecker product", "statement": "kron of a non-empty list of matrices is the iterated Kronecker product: entry (i,j) is the product of the entries addressed by the mixed-radix digits of i and j.", "quantifier": "all list lengths and all matrix shapes", "why_tests_cant": "all shapes", "anchors": ["code/cpp/src/solvers/dg/dg_matrices.cpp: kron (4-28)"]}
{"id": "C29", "title": "The DG mass-stiffness matrices are the Galerkin integrals", "statement": "derivative_products and end_value_products are the integrals and end-point products of the nodal basis, their rows satisfy the summation-by-parts identity, and a field constant in space-time solves the predictor equations with zero source.", "quantifier": "all N and node sets for which the quadrature is exact", "why_tests_cant": "all N", "anchors": ["code/cpp/src/solvers/dg/dg_matrices.cpp: end_value_products, derivative_products", "code/cpp/src/etc/globals.cpp", "code/cpp/src/solvers/dg/dg1.cpp: rhs1, obj1"]}
{"id": "C30", "title": "The predictor output of every active cell is defined and solves the predictor equations to tolerance", "statement": "For each active cell predictor writes a vector q; when the fixed-point exit is taken, successive iterates differ by at most DG_TOL*(1+|q|) componentwise, and an exact fixed point is an exact zero of the Newton objective.", "quantifier": "all inputs, including those for which the iteration does not converge", "why_tests_cant": "the non-converged exit leaves memory unwritten, which looks right when the buffer is reused", "anchors": ["code/cpp/src/solvers/dg/dg1.cpp: predictor1 (58-114), obj1", "code/cpp/src/solvers/dg/dg2.cpp: predictor2"]}
{"id": "C31", "title": "Time stepping never passes the final time and respects the CFL bound", "statement": "timestep returns dt with t + dt <= tf and dt * (fastest wave speed)/dx <= CFL (a fifth of it while the step count is at most 5); a run that ends has t = tf exactly.", "quantifier": "all fields, times, step counts, wave speeds", "why_tests_cant": "all histories of wave speeds", "anchors": ["code/cpp/src/solvers/iterator.cpp: timestep (54-83), iterator (85-170)"]}
{"id": "C32", "title": "Snapshots are taken in order, once each, and the last one is the final state", "statement": "iterator stores at most 100 snapshots, snapshot k at the first step whose time reaches (k+1)/100 of tf after snapshot k-1, and never writes outside the 100 slots.", "quantifier": "all runs: any sequence of step sizes, including runs that end because of NaN", "why_tests_cant": "depends on the whole history of step sizes and on where a NaN appears", "anchors": ["code/cpp/src/solvers/iterator.cpp: iterator (120-170)"]}
{"id": "C33", "title": "Concentration limiting keeps mass fractions in range", "statement": "After limit_concentration every cell has 0 <= rho*lambda <= rho when rho >= 0, values already in range are unchanged, all other components are unchanged, and applying it twice changes nothing more.", "quantifier": "all fields", "why_tests_cant": "all fields", "anchors": ["code/cpp/src/solvers/iterator.cpp: limit_concentration (44-52)"]}
{"id": "C34", "title": "Merging material grids takes each cell from its own material", "statement": "make_u fills every non-vacuum cell with the state from the grid of the material that the cell's level sets select, with level sets averaged over the grids whose mask holds there; vacuum cells carry no matter.", "quantifier": "all grids, masks, material lists", "why_tests_cant": "all level-set patterns", "anchors": ["code/cpp/src/solvers/iterator.cpp: make_u (12-42)"]}
{"id": "C35", "title": "Level-set indicator and material index agree", "statement": "For nested level sets without zeros, material_indicator of material m is negative exactly in the cells whose get_material_index is m, so every cell belongs to exactly one material.", "quantifier": "all numbers of materials and all level-set values", "why_tests_cant": "all sign patterns for any number of level sets", "anchors": ["code/cpp/src/multi/functions.cpp: material_indicator (65-81)", "code/cpp/src/system/variables/state.cpp: get_material_index"]}
{"id": "C36", "title": "Interface cells are exactly the cells with a neighbour across the interface", "statement": "find_interface_cells marks an inside cell -1 iff a face neighbour has phi of opposite sign (or one of the two is zero) and an outside cell +1 iff a face neighbour is inside, and leaves all other cells 0, except that in 2D inside cells without inside neighbours are marked -2 and do not count as inside neighbours.", "quantifier": "all grid sizes and fields in 1D and 2D", "why_tests_cant": "order of overwriting over all fields", "anchors": ["code/cpp/src/multi/fill.cpp: update_interface_mask, find_interface_cells (20-74)"]}
{"id": "C37", "title": "Ghost layers are numbered by distance from the interface", "statement": "fill_neighbor_cells numbers the unmarked outside cells by breadth-first layers: after k passes a cell carries k+1 iff its graph distance from the layer-1 cells through unmarked cells is k.", "quantifier": "all grid sizes, fields and layer counts", "why_tests_cant": "all shapes of interface", "anchors": ["code/cpp/src/multi/fill.cpp: fill_neighbor_inner, fill_neighbor_cells (237-328)"]}
{"id": "C38", "title": "Pressure and internal energy are inverse; conserved and primitive forms round-trip", "statement": "pressure_mg(rho, E_1(rho,p)) = p and E_1(rho, pressure_mg(rho,e)) = e for every equation of state; Cvec(Pvec(Q)) = Q and Pvec_to_Cvec(Cvec_to_Pvec(Q)) = Q.", "quantifier": "all states with positive density, all five equations of state, all feature sets", "why_tests_cant": "real-valued inputs and feature combinations", "anchors": ["code/cpp/src/system/energy/mg.cpp, eos.cpp", "code/cpp/src/system/variables/state.cpp", "code/cpp/src/system/functions/vectors.cpp: Cvec, Pvec, Cvec_to_Pvec, Pvec_to_Cvec"]}
{"id": "C39", "title": "Equation-of-state derivative functions are the derivatives", "statement": "dG_MG, dp_ref, de_ref, dedrho, dedp, dTdrho, dTdp, dc_s2drho, dC_0drho, dEdrho and dEdp are the partial derivatives of the functions they differentiate.", "quantifier": "all five equations of state, all densities and pressures in the domain of the formulas", "why_tests_cant": "finite differencing only samples", "anchors": ["code/cpp/src/system/energy/mg.cpp, derivatives.cpp", "code/cpp/src/system/waves/shear.cpp"]}
{"id": "C40", "title": "Stress and its derivatives are consistent with the energy", "statement": "The viscous stress is symmetric; dEdA is the gradient of the shear energy; both dsigmadA functions and dsigmadrho are derivatives of the stress and agree with one another.", "quantifier": "all states and material parameters", "why_tests_cant": "real-valued identity in nine distortion components", "anchors": ["code/cpp/src/system/variables/state.cpp: sigma, dsigmadrho, dsigmadA", "code/cpp/src/system/energy/derivatives.cpp: dEdA", "code/cpp/src/system/functions/matrices.cpp: AdevG, devGsq, gram"]}
{"id": "C41", "title": "The system matrix is the quasi-linear form of the equations", "statement": "dFdP is the Jacobian of the flux in primitive variables, dPdQ the Jacobian of the primitive variables in the conserved ones, so system_matrix = dF/dQ + B.", "quantifier": "all states with positive density, every direction", "why_tests_cant": "a 14x14 symbolic identity", "anchors": ["code/cpp/src/system/jacobians.cpp: dFdP, dPdQ", "code/cpp/src/system/equations.cpp: flux, block, system_matrix"]}
{"id": "C42", "title": "The non-conservative product is linear and matches its matrix", "statement": "Bdot(x, Q) equals the matrix block(Q, d) times x for each direction and is zero in the density, energy and momentum components.", "quantifier": "all states, vectors and directions", "why_tests_cant": "hand-unrolled code per direction", "anchors": ["code/cpp/src/system/equations.cpp: block, B0dot, B1dot, B2dot, Bdot"]}
{"id": "C43", "title": "rotation_matrix is a proper rotation taking the normal to the x axis", "statement": "For every unit vector n the matrix R is orthogonal with determinant 1, R n = e1 and the divisor under the square root is positive; rotating a state by R and then by its transpose gives the state back.", "quantifier": "all unit vectors, including those where either branch degenerates", "why_tests_cant": "degenerate directions are measure zero", "anchors": ["code/cpp/src/system/multi/rotations.cpp: rotation_matrix, rotate_tensors"]}
{"id": "C44", "title": "Thermodynamics is rotation invariant", "statement": "Rotating a state leaves density, total energy, pressure and temperature unchanged and rotates the stress as a tensor.", "quantifier": "all states and all orthogonal matrices", "why_tests_cant": "real-valued identity", "anchors": ["code/cpp/src/system/multi/rotations.cpp: rotate_tensors", "code/cpp/src/system/variables/state.cpp", "code/cpp/src/system/functions/matrices.cpp"]}
{"id": "C45", "title": "Wave speeds do not depend on which axis a wave travels along", "statement": "max_abs_eigs in direction 1 of a state equals max_abs_eigs in direction 0 of the same state with the axes exchanged, and it bounds the characteristic speeds of system_matrix in that direction.", "quantifier": "all states and directions", "why_tests_cant": "the existing tests compare with a second implementation that shares the formula", "anchors": ["code/cpp/src/system/eig.cpp: Xi1, Xi2, thermo_acoustic_tensor, max_abs_eigs"]}
{"id": "C46", "title": "Distortion renormalisation restores the density constraint", "statement": "After renorm_distortion every matter cell satisfies rho = rho0 * det A of its own material, only the distortion entries changed, vacuum cells are untouched, and a second call changes nothing.", "quantifier": "all fields with positive densities and non-singular distortion", "why_tests_cant": "all fields", "anchors": ["code/cpp/src/solvers/utils.cpp: renorm_distortion (6-23)"]}
{"id": "C47", "title": "Distortion reset keeps pressure and removes shear", "statement": "reset_distortion leaves density, momentum and pressure of each matter cell unchanged, makes the distortion isotropic with rho = rho0 det A, and afterwards contorted reports false for every non-negative tolerance.", "quantifier": "all fields with positive densities", "why_tests_cant": "all fields and tolerances", "anchors": ["code/cpp/src/solvers/utils.cpp: reset_distortion (44-63), contorted (65-85)"]}
{"id": "C48", "title": "The contortion test measures anisotropy", "statement": "contorted is false on every isotropic field and its measure is at least 1 for every non-singular distortion, so with non-negative tolerance it reports true iff some matter cell has normalised tr(G) above 1 + tol.", "quantifier": "all fields and tolerances", "why_tests_cant": "all distortions", "anchors": ["code/cpp/src/solvers/utils.cpp: contorted (65-85)"]}
{"id": "C49", "title": "rotate_distortion keeps the metric tensor", "statement": "Replacing A by its singular values times V^T leaves A^T A, hence stress and energy, unchanged in every cell.", "quantifier": "all distortions and every valid singular value decomposition", "why_tests_cant": "SVD is not unique; all of its outputs must work", "anchors": ["code/cpp/src/solvers/utils.cpp: rotate_distortion (25-42)"]}
{"id": "C50", "title": "Strain relaxation keeps the volume ratio", "statement": "The analytic distortion solver returns a matrix with the determinant of its input, for every time step for which its square roots are real.", "quantifier": "all distortions, time steps and relaxation times", "why_tests_cant": "real-valued inputs", "anchors": ["code/cpp/src/system/relaxation/analytic.cpp: analyticSolver_distortion"]}
{"id": "C51", "title": "Strain relaxation over zero time is the identity", "statement": "The analytic distortion solver with dt = 0 returns the distortion it was given.", "quantifier": "all distortions, including those with three distinct singular values", "why_tests_cant": "the branch that fails needs a particular sign of the discriminant", "anchors": ["code/cpp/src/system/relaxation/analytic.cpp: analyticSolver_distortion"]}
{"id": "C52", "title": "Reaction progress stays in [0, lambda]", "statement": "One relaxation step of the reactant mass fraction never makes it negative, never increases it when the rate is non-negative, and touches only the concentration component.", "quantifier": "all states, rates, step sizes", "why_tests_cant": "all rate laws and step sizes", "anchors": ["code/cpp/src/system/relaxation/numerical.cpp: ode_stepper_numerical", "code/cpp/src/solvers/split/rk.cpp: rk4, runge_kutta, runge_kutta_launcher", "code/cpp/src/system/variables/sources.cpp: reaction_rate"]}
{"id": "C53", "title": "The Runge-Kutta integrator is classical RK4 and the retry loop stops", "statement": "On y' = k y every step multiplies by the degree-4 Taylor polynomial of exp; constant right-hand sides are integrated exactly; runge_kutta_launcher tries at most a fixed number of refinements and returns a non-NaN value if any refinement produced one.", "quantifier": "all right-hand sides, initial values, final times and step counts >= 1", "why_tests_cant": "termination and all right-hand sides", "anchors": ["code/cpp/src/solvers/split/rk.cpp"]}
{"id": "C54", "title": "Newton-Krylov stops early only at a root", "statement": "If nonlin_solve returns before exhausting its iterations, the residual it was asked to reduce is at most f_tol in maximum norm at the returned point (or contains a NaN that the maximum norm hides), whatever the inner linear solver returned; it makes at most 3*(n+1) outer iterations.", "quantifier": "all residual functions, starting points, tolerances, inner solver results", "why_tests_cant": "quantifies over functions and solver behaviours", "anchors": ["code/cpp/src/scipy/newton_krylov.cpp: nonlin_solve, _nonlin_line_search, phi, TerminationCondition::check"]}
{"id": "C55", "title": "The line search terminates with a sufficient-decrease step or the full step", "statement": "scalar_search_armijo terminates for every merit function and returns either a step satisfying the Armijo condition or 1.", "quantifier": "all merit functions and starting values", "why_tests_cant": "the loop guard depends on interpolated steps", "anchors": ["code/cpp/src/scipy/newton_krylov.cpp: scalar_search_armijo (91-127)"]}
{"id": "C56", "title": "Newton-Krylov honours the step tolerance", "statement": "With a finite step tolerance nonlin_solve stops once both the residual and the last step are below their tolerances.", "quantifier": "all residual functions and tolerances", "why_tests_cant": "the failing case merely runs longer", "anchors": ["code/cpp/src/scipy/newton_krylov.cpp: nonlin_solve (143-182), TerminationCondition::check (63-76)"]}
{"id": "C57", "title": "Star states satisfy the interface conditions", "statement": "The states produced by one star-state step have equal interface velocities and equal tractions up to the linearisation used (stick), equal normal velocity and zero tangential traction (slip).", "quantifier": "all pairs of states for which the linear system is solvable", "why_tests_cant": "real-valued identity", "anchors": ["code/cpp/src/system/multi/riemann.cpp: star_stepper", "code/cpp/src/system/multi/conditions.cpp: stick_bcs, slip_bcs"]}
{"id": "C58", "title": "Material-interface solver always returns a usable state", "statement": "left_star_state performs at most ten refinement steps and returns the unmodified left state whenever the refined one contains NaN.", "quantifier": "all state pairs and normals", "why_tests_cant": "needs NaN-producing states", "anchors": ["code/cpp/src/system/multi/riemann.cpp: left_star_state"]}
{"id": "C59", "title": "Level-set gradients are exact on affine fields and normals are unit vectors", "statement": "finite_difference returns the exact gradient of any affine field on all cells, edges included, when each axis has at least three cells; normal returns a unit vector unless the gradient is zero.", "quantifier": "all grid sizes, spacings, affine fields", "why_tests_cant": "all sizes", "anchors": ["code/cpp/src/multi/functions.cpp: finite_difference (16-54), normal"]}
{"id": "C60", "title": "The predictor equations are the weak form of the system and polynomial solutions satisfy them exactly", "statement": "The predictor objective obj1/obj2 equals, node by node, the residual of the evolution equation plus the jump at the start of the step, so nodal values of a space-time polynomial solution of degree below N that starts from the reconstruction are a zero of it.", "quantifier": "all N, all systems, all cell sizes and time steps, 1D and 2D", "why_tests_cant": "real-valued identity over all systems and node counts", "anchors": ["code/cpp/src/solvers/dg/dg1.cpp: rhs1, obj1", "code/cpp/src/solvers/dg/dg2.cpp: rhs2, obj2", "code/cpp/src/solvers/dg/dg_matrices.cpp"]}
{"id": "C61", "title": "Filling ghost cells never touches real material", "statement": "After fill_ghost_cells the grid of a material has the level sets of the input in every cell and the whole state of the input in every non-isolated cell of that material, whatever the Riemann solver returns, wherever the interface probes land and in whatever order the threads visit the cells; the mask of the material is true exactly in its non-isolated inside cells and in the cells next to them.", "quantifier": "all grids in 1D and 2D, all fields, states, solver results and visiting orders", "why_tests_cant": "all schedules and all results of the Riemann solver", "anchors": ["code/cpp/src/multi/fill.cpp: fill_boundary_inner (134-198), fill_boundary_cells (200-235), fill_ghost_cells (330-370)"]}
{"id": "C62", "title": "Ghost cells hold interface states computed from real material", "statement": "If the field is non-positive exactly in the cells of the material, every ghost cell within the filled layers ends up with a state that left_star_state computed from an unmodified cell of the material, in whatever order the cells are visited.", "quantifier": "all grids in 1D and 2D, all fields, states, solver results and visiting orders", "why_tests_cant": "copies chain through up to 10N layers and depend on the order of visits", "anchors": ["code/cpp/src/multi/fill.cpp: boundary_inds, fill_boundary_inner, fill_neighbor_inner, fill_neighbor_cells, fill_ghost_cells"]}
{"id": "C63", "title": "Source terms conserve and dissipate", "statement": "The source vector leaves density, total energy and the ratio of density to the determinant of the distortion unchanged; without body force and reaction the internal energy of a material at rest does not decrease along it.", "quantifier": "all viscous configurations, materials with non-negative relaxation times, states and curves driven by the source", "why_tests_cant": "a statement about time derivatives of all trajectories", "anchors": ["code/cpp/src/system/equations.cpp: source (50-67)", "code/cpp/src/system/variables/sources.cpp: theta1inv, theta2inv"]}
{"id": "C64", "title": "Strain relaxation forgets the strain and nothing else", "statement": "As the time step grows the analytic distortion solver of a Newtonian fluid converges to the rotation of the input times the cube root of its determinant; its mean and spread of squared stretches solve the linearised moment equations exactly; elastic solids are left alone.", "quantifier": "all distortions with positive determinant, all materials", "why_tests_cant": "limit over unbounded time steps", "anchors": ["code/cpp/src/system/relaxation/analytic.cpp: analyticSolver_distortion (71-128)"]}
{"id": "C65", "title": "The thermal relaxation solves the thermal source term", "statement": "The thermal impulse returned by the analytic solver, as a function of the time step, satisfies dJ/dt = -J/theta2 with the temperature of the state it has reached.", "quantifier": "all states, materials and time steps", "why_tests_cant": "statement about the derivative in the time step", "anchors": ["code/cpp/src/system/relaxation/analytic.cpp: analyticSolver_thermal (130-150)", "code/cpp/src/system/variables/sources.cpp: theta2inv"]}
{"id": "C66", "title": "The source half step keeps mass, energy, volume ratio and level sets in every cell", "statement": "ode_launcher treats every cell on its own; each cell keeps its density, total energy, determinant of the distortion, level sets and material index, gains momentum delta_p*dt, and its reactant mass does not grow or become negative.", "quantifier": "all grid sizes, states, materials and time steps", "why_tests_cant": "all grid sizes and states", "anchors": ["code/cpp/src/solvers/split/ode.cpp: ode_launcher (5-11)", "code/cpp/src/system/relaxation/analytic.cpp: ode_stepper_analytic", "code/cpp/src/system/relaxation/numerical.cpp: ode_stepper_numerical"]}
{"id": "C67", "title": "A start within the tolerance is returned as it is", "statement": "With the default tolerances nonlin_solve called with only f_tol returns its starting point unchanged if the residual there is at most f_tol in maximum norm, in particular if it is a root.", "quantifier": "all residual functions, starting points, tolerances and inner solver results", "why_tests_cant": "quantifies over functions; the outcome depends on the size of the state, not of the residual", "anchors": ["code/cpp/src/scipy/newton_krylov.cpp: nonlin_solve (143-182), TerminationCondition (54-76)", "code/cpp/src/scipy/newton_krylov.h: default arguments"]}
{"id": "C68", "title": "A Newton step does not move to a point without a residual", "statement": "If the residual at the current point has no NaN, the point chosen by the line search has none either, as long as some shorter step avoids it.", "quantifier": "all residual functions, points and directions", "why_tests_cant": "needs residuals that become NaN along the search direction", "anchors": ["code/cpp/src/scipy/newton_krylov.cpp: scalar_search_armijo (91-127), _nonlin_line_search (129-141)"]}
{"id": "C69", "title": "The linear solver never makes the residual worse", "statement": "For a linear operator, lgmres returns a vector whose residual is at most that of its starting vector, for any number of restarts and any vectors kept from earlier calls; each restart is optimal over the directions it searched, in particular at least as good as any step along the residual.", "quantifier": "all linear operators on real inner product spaces, right-hand sides, starting vectors, kept vectors, restart counts", "why_tests_cant": "optimality over a continuum of alternatives and unbounded dimension", "anchors": ["code/cpp/src/scipy/lgmres.cpp: lgmres (6-104)"]}
{"id": "C70", "title": "Small regular systems are solved to the tolerance", "statement": "A regular linear system with at most inner_m unknowns is solved by one restart of lgmres to the requested relative tolerance, unless the breakdown threshold is met; hence the first Newton direction computed for an affine residual in at most thirty unknowns brings the residual below the tolerance, whatever the difference step.", "quantifier": "all regular operators, right-hand sides, tolerances and difference steps", "why_tests_cant": "all operators and dimensions up to the restart length", "anchors": ["code/cpp/src/scipy/lgmres.cpp: lgmres (6-104)", "code/cpp/src/scipy/newton_krylov.cpp: KrylovJacobian::matvec (28-35), KrylovJacobian::solve (39-48)"]}
{"id": "C71", "title": "Corrections at an interface are outgoing waves", "statement": "To first order, one star-state step changes the state on the left of an interface only by waves that travel to the left of the material there, and the state on the right only by waves that travel to the right.", "quantifier": "all pairs of regular states of pure materials, stick and slip, for which the step is defined", "why_tests_cant": "statement about eigenvectors and derivatives of arbitrary states", "anchors": ["code/cpp/src/system/multi/riemann.cpp: riemann_constraints (79-154), star_stepper (156-201)", "code/cpp/src/system/eig.cpp: Xi1, Xi2"]}
{"id": "C72", "title": "The equations are hyperbolic", "statement": "The acoustic tensor that the code assembles along the first axis is symmetric for every distortion; where it is positive definite, the characteristic matrix has real eigenvalues and enough eigenvectors to build up any state change.", "quantifier": "all states, materials and equations of state", "why_tests_cant": "a statement about all eigenvectors of all states", "anchors": ["code/cpp/src/system/eig.cpp: Xi1 (8-31), Xi2 (33-53)", "code/cpp/src/system/system.cpp: system_matrix"]}
{"id": "C73", "title": "The interface equations always have a solution", "statement": "For materials without heat conduction, whenever the constraints on both sides can be formed the equations of stick_bcs and slip_bcs are regular, so that star_stepper yields a state on both sides.", "quantifier": "all states of positive density, all pairs of materials", "why_tests_cant": "regularity of a matrix for all inputs", "anchors": ["code/cpp/src/system/multi/conditions.cpp: stick_bcs (7-29), slip_bcs (31-64)", "code/cpp/src/system/multi/riemann.cpp: star_stepper (156-201)"]}
{"id": "C74", "title": "A converged interface state meets the interface conditions in the axes of the grid", "statement": "If left_star_state stops before its tenth step, the traction of the returned state on the interface vanishes next to a vacuum, and agrees with that of the refined state on the other side next to a material, as does the velocity (only normal components for slip), up to STAR_TOL times the scales of the materials. States that agree already are returned unchanged. The returned state keeps the level sets and the mass fraction of the left state.", "quantifier": "all states, unit normals, materials and tolerances", "why_tests_cant": "all normals and states; rounding of rotations aside", "anchors": ["code/cpp/src/system/multi/riemann.cpp: check_star_convergence (26-77), left_star_state (203-233)", "code/cpp/src/system/multi/rotations.cpp"]}
{"id": "C75", "title": "The preconditioned linear solver never makes things worse", "statement": "lgmres_wrapper never increases the preconditioned residual of its starting vector, without a preconditioner the residual itself; from the zero vector it solves regular systems of at most inner_m unknowns to its tolerance, measured after preconditioning; it hands on at most outer_k vectors.", "quantifier": "all matrices, regular preconditioners, right-hand sides, tolerances and restart lengths", "why_tests_cant": "all operators and dimensions", "anchors": ["code/cpp/src/scipy/lgmres.cpp: lgmres_wrapper (106-127)"]}
{"id": "C76", "title": "The implicit solver of ordinary differential equations is stable for steps of any length", "statement": "A solution of the equations that stiff_ode_solve sets up for a rate that never drives the quantity away from zero ends no further from zero than it began; two runs with the same non-increasing rate do not move apart, and such equations have at most one solution. A run that meets the Newton tolerance obeys the bound up to that tolerance.", "quantifier": "all numbers of nodes, rates, starting values and step lengths", "why_tests_cant": "all nonlinear rates and unbounded step lengths", "anchors": ["code/cpp/src/solvers/split/numeric.cpp: obj0 (5-13), stiff_ode_solve (15-25)", "code/cpp/src/solvers/dg/dg_matrices.cpp"]}
{"id": "C77", "title": "The implicit solver of ordinary differential equations is exact for low-degree solutions", "statement": "If the equation has a polynomial solution of degree less than N over the step, that solution solves the equations of stiff_ode_solve and its end value is the one returned; a value at which the rate vanishes is returned unchanged.", "quantifier": "all numbers of nodes, rates and polynomials", "why_tests_cant": "all polynomials and rates", "anchors": ["code/cpp/src/solvers/split/numeric.cpp: obj0 (5-13), stiff_ode_solve (15-25)"]}
{"id": "C78", "title": "A decaying quantity decays", "statement": "stiff_ode_solve applied to linear decay of a positive quantity returns a positive value below the starting value.", "quantifier": "all decay rates and step lengths", "why_tests_cant": "all rates and step lengths", "anchors": ["code/cpp/src/solvers/split/numeric.cpp: stiff_ode_solve (15-25)"]}
{"id": "C79", "title": "eigen returns a complete set of right eigenvectors", "statement": "The columns of eigen(Q, 0, MP), read as rates of density, pressure, distortion columns, velocity and the remaining components, are linearly independent right eigenvectors of the system: waves to the right, waves to the left, and contacts that move with the material.", "quantifier": "all states and materials with a positive acoustic tensor", "why_tests_cant": "a statement about all columns for all states", "anchors": ["code/cpp/src/system/multi/eigenvecs.cpp: eigen (10-83)"]}
{"id": "C80", "title": "The phases of a mixture are in equilibrium", "statement": "Whenever the Newton solver inside solve_multi meets its tolerance, both phase densities it returns are positive, the volumes of the phases add up to the volume of the mixture, both phases have the pressure returned, and their energies add up to the energy of the mixture and their temperatures agree within the tolerance. A pure phase has its own density and its own pressure, cut off at zero. A mixture of a material with itself gets the pressure of that material.", "quantifier": "all states, equations of state, mass fractions, tolerances and linear solvers", "why_tests_cant": "all states and materials; the solver in between is iterative", "anchors": ["code/cpp/src/system/energy/multi.cpp: obj (7-24), average_pressure (26-30), solve_multi (32-63)"]}
{"id": "C81", "title": "dEdρ and dEdp of a mixture are the derivatives of the energy of the mixture", "statement": "Along every path of mixtures in equilibrium with fixed mass fraction, the internal energy changes at the rate dEdrho times the rate of density plus dEdp times the rate of pressure.", "quantifier": "all paths, materials and mass fractions", "why_tests_cant": "derivatives along all paths", "anchors": ["code/cpp/src/system/energy/derivatives.cpp: dEdrho, dEdp (11-65)"]}
{"id": "C82", "title": "A mixture of two stiffened gases has exactly one equilibrium", "statement": "For two stiffened gases and a mass fraction strictly between zero and one the equations that solve_multi solves have exactly one solution of positive densities and temperature if the energy density exceeds the smaller reference pressure, and none otherwise. For ideal gases the solution is Dalton's law.", "quantifier": "all gases, densities, energies and mass fractions", "why_tests_cant": "existence and uniqueness over the reals", "anchors": ["code/cpp/src/system/energy/multi.cpp: obj (7-24), solve_multi (32-63)"]}
{"id": "C83", "title": "A shortened Newton step goes forward, is shorter than the full step and reduces the residual", "statement": "From real values and a residual that is real at real values, the line search of nonlin_solve moves along the direction it is given by a factor s with 0 <= s <= 1; s is positive unless the residual is zero already; unless s = 1 the squared residual is reduced to (1 - s/10000) of its value at least. A trial step inside the search minimises the cubic through the values and the slope the search assumes.", "quantifier": "all residual functions, points and directions", "why_tests_cant": "all residual functions", "anchors": ["code/cpp/src/scipy/newton_krylov.cpp: phi (78-89), scalar_search_armijo (91-127), nonlin_line_search (129-141)"]}
{"id": "C84", "title": "Each linear solve is asked for a real reduction of the residual", "statement": "The tolerance nonlin_solve passes to its linear solver is always a number from 0 to 0.9999, and for a residual of numbers at most 0.9999 times its Euclidean norm; the right-hand side is always the residual at the current point.", "quantifier": "all residual functions, linear solvers, tolerances and starting points, including NaN and infinities", "why_tests_cant": "holds for every pass of every run", "anchors": ["code/cpp/src/scipy/newton_krylov.cpp: nonlin_solve (143-182)"]}
{"id": "C85", "title": "The Newton-Krylov solver makes progress on linear equations", "statement": "Applied to a system of linear equations nonlin_solve returns a point with a residual not larger than at the start. If the system is regular, has at most thirty unknowns and the Krylov iteration does not break down, then either the start is within the tolerances and is returned, or the residual is at most a thousandth of the one at the start.", "quantifier": "all linear systems, starting points and tolerances", "why_tests_cant": "all linear systems of all sizes", "anchors": ["code/cpp/src/scipy/newton_krylov.cpp: KrylovJacobian (9-52), nonlin_solve (143-182)", "code/cpp/src/scipy/lgmres.cpp"]}
{"id": "C86", "title": "Strain starts to relax at the rate of the source term", "statement": "The analytic relaxation of the distortion reduces the sum of the squares of the stretches, to first order in the time step, by as much as the relaxation source term of the equations does, for Newtonian fluids, power-law fluids, power-law solids, Bingham fluids and elastic solids.", "quantifier": "all distorted states with distinct stretches, all materials", "why_tests_cant": "compares a closed formula with a differential equation for all states", "anchors": ["code/cpp/src/system/relaxation/analytic.cpp: nondimensionalized_time (17-69), analyticSolver_distortion (71-128)", "code/cpp/src/system/variables/sources.cpp: theta1inv (13-81)", "code/cpp/src/system/equations.cpp: source (50-67)"]}
{"id": "C87", "title": "Relaxation of power-law materials follows the decay of the stress", "statement": "For power-law solids and fluids the nondimensional time of the analytic relaxation advances at the rate that the power law gives for the current equivalent stress, if the square of the stress is replaced by an exponential function of that time with the right value at the start and the right integral over the linearised relaxation.", "quantifier": "all states, time steps and exponents for which the time is defined", "why_tests_cant": "a statement about derivatives and improper integrals for all parameters", "anchors": ["code/cpp/src/system/relaxation/analytic.cpp: nondimensionalized_time (17-69)"]}
{"id": "C88", "title": "Every field the simulation hands on is well formed", "statement": "After every pass of iterator, in every snapshot it stores on the way and in all slots it returns at the final time: every cell belongs to one of the materials; mass fractions are between zero and one; the volume ratio of the distortion is the one of the density, rho = rho0 |det A|; vacuum cells are zero; no cell is contorted. The end of a pass leaves density, momentum, heat flux and level sets to the steppers, never adds energy, and takes energy away only if it sets all cells to the unstrained state.", "quantifier": "all steppers, interface fills and boundaries, all numbers of passes, materials and fields", "why_tests_cant": "an invariant of all passes whatever the solvers do", "anchors": ["code/cpp/src/solvers/iterator.cpp: make_u (12-42), limit_concentration (44-52), iterator (110-169)", "code/cpp/src/solvers/utils.cpp: renorm_distortion, rotate_distortion, reset_distortion, contorted"]}
{"id": "C89", "title": "Periodic runs conserve mass, momentum and energy", "statement": "On a grid with periodic boundaries and one material, after every pass of iterator and in every snapshot: the total mass is the one of the initial field, the total momentum has changed by elapsed time times body force per cell, and the total energy has not grown; it is the initial one unless some pass set the field to the unstrained state.", "quantifier": "all initial fields, fluxes, predictors, numbers of threads and schedules, numbers of passes", "why_tests_cant": "a sum over all cells and all passes cancels", "anchors": ["code/cpp/src/solvers/iterator.cpp: iterator (110-169)", "code/cpp/src/solvers/steppers.cpp", "code/cpp/src/etc/grid.cpp: boundaries", "code/cpp/src/solvers/weno/weno.cpp: weno2 (83-124)", "code/cpp/src/solvers/fv/fv.cpp"]}
{"id": "C90", "title": "The half step of the split scheme follows the equations without sources", "statement": "midstepper turns the reconstruction of an active cell, at every node, into its value plus half the time step times the time derivative that du/dt + dF(u)/dx + dG(u)/dy + B(u) grad u = 0 prescribes, whenever value and fluxes are polynomials of the degree of the reconstruction; the result differs from the solution at half the time step by less than first order. Constant states stay, linear profiles carried by a constant speed are moved exactly, and the cell mean of a component without nonconservative part changes by the difference of the interpolated fluxes at the two faces over half the time step.", "quantifier": "all orders, cell sizes, time steps, systems with a linear nonconservative part, one and two dimensions", "why_tests_cant": "relates a table-driven update to a partial differential equation for all profiles", "anchors": ["code/cpp/src/solvers/split/homogeneous.cpp: midstepper (5-68)"]}
{"id": "C91", "title": "A uniform unstrained body stays as it is for the whole run", "statement": "If all cells hold the same state, with distortion a multiple of a rotation, density fitting the distortion, no heat flux, no body force and no reaction, then after every pass of iterator, in every snapshot and in every slot returned, all cells still hold that state. This is so for moving bodies on periodic or open grids, and for bodies at rest between slip or stick walls. It holds for both steppers, for Picard iteration as well as Newton-Krylov prediction, with or without NO_CORNERS as long as every chunk of rows is wide enough for the stencils.", "quantifier": "all such states, one material, all fluxes that are consistent, numbers of threads, schedules, numbers of passes, time steps", "why_tests_cant": "no finite number of passes or states shows that nothing ever moves", "anchors": ["code/cpp/src/solvers/iterator.cpp: iterator (85-170)", "code/cpp/src/solvers/steppers.cpp", "code/cpp/src/solvers/weno/weno.cpp", "code/cpp/src/solvers/dg/dg.cpp", "code/cpp/src/solvers/split/homogeneous.cpp", "code/cpp/src/solvers/split/ode.cpp", "code/cpp/src/solvers/fv/fv.cpp", "code/cpp/src/etc/grid.cpp: boundaries"]}
{"id": "C92", "title": "A plane run whose data do not vary along y is a line run", "statement": "If all columns of the initial field of a plane hold the same line of cells, the ends along y are transmissive or periodic, and the time steps agree, then after every pass of iterator, in every snapshot and in every slot returned, all columns of the plane hold what the line run of the same cells holds at that time. The time steps agree if the CFL number of the plane is larger than that of the line by the factor by which the sum of the wave speeds over cell sizes of both axes exceeds that of the first.", "quantifier": "all initial fields and ends along x, both steppers, all fluxes, numbers of threads and schedules, numbers of passes", "why_tests_cant": "compares two runs of different dimension, which use different code, for all data", "anchors": ["code/cpp/src/solvers/iterator.cpp: timestep (54-83), iterator (85-170)", "code/cpp/src/solvers/steppers.cpp", "code/cpp/src/solvers/weno/weno.cpp: weno1, weno2", "code/cpp/src/solvers/dg/dg.cpp", "code/cpp/src/solvers/split/homogeneous.cpp", "code/cpp/src/solvers/fv/fv.cpp", "code/cpp/src/etc/grid.cpp: boundaries"]}
{"id": "C93", "title": "Shifted data on a periodic grid give the shifted run", "statement": "On a grid with periodic ends, if the initial field of one run is that of another moved by any number of cells along the axes, round the ends, then after every pass of iterator, in every snapshot and in every slot returned the one field is the other moved by as many cells, and the times agree.", "quantifier": "all initial fields and shifts, both steppers, all fluxes, numbers of threads and schedules, numbers of passes", "why_tests_cant": "compares two runs for all data; the loops and chunks of the steppers treat the ends of the grid differently from its inside", "anchors": ["code/cpp/src/solvers/iterator.cpp: timestep (54-83), iterator (85-170)", "code/cpp/src/solvers/steppers.cpp", "code/cpp/src/solvers/weno/weno.cpp", "code/cpp/src/solvers/dg/dg.cpp", "code/cpp/src/solvers/split/homogeneous.cpp", "code/cpp/src/solvers/fv/fv.cpp", "code/cpp/src/etc/grid.cpp: boundaries"]}
{"id": "C94", "title": "Relaxation does not depend on the frame or on the decomposition Eigen picks", "statement": "The distortion that strain relaxation returns is the same for every singular value decomposition of the input, depends continuously on it, and turns with it: orthogonal maps on either side of the distortion pass through. Turning the state and the body force of a cell turns the result of its whole source-term half step, reactions and heat conduction included.", "quantifier": "all materials, states, decompositions, orthogonal maps and time steps", "why_tests_cant": "the decomposition is chosen inside a library and not unique; invariance under a continuous group", "anchors": ["code/cpp/src/system/relaxation/analytic.cpp: analyticSolver_distortion (71-128), ode_stepper_analytic (152-162)", "code/cpp/src/system/relaxation/numerical.cpp", "code/cpp/src/solvers/split/ode.cpp", "code/cpp/src/system/functions/rotations.cpp: rotate_tensors (37-47)"]}
{"id": "C95", "title": "The mirror image of the data gives the mirror image of the run", "statement": "On a line, if the initial field of one run is the mirror image of that of another, the ends are exchanged and the body force is reflected, then after every pass of iterator, in every snapshot and in every slot returned the one field is the mirror image of the other, and the times agree. The mirror image has the cells in reverse order, with the signs of the first components of momentum and heat flux and of the mixed entries of the distortion changed. In particular, if the data are their own mirror image, both ends are of one kind and no body force acts along the line, then the field stays its own mirror image and its total momentum along the line stays zero. There are no moving walls.", "quantifier": "all initial fields, ends, orders, materials, both steppers, numbers of threads and schedules, numbers of passes", "why_tests_cant": "compares two runs for all data; reconstruction, prediction and interface terms treat left and right by different code", "anchors": ["code/cpp/src/solvers/iterator.cpp: timestep (54-83), iterator (85-170)", "code/cpp/src/solvers/steppers.cpp", "code/cpp/src/solvers/weno/weno.cpp", "code/cpp/src/solvers/dg/dg.cpp", "code/cpp/src/solvers/split/homogeneous.cpp", "code/cpp/src/solvers/split/ode.cpp", "code/cpp/src/solvers/fv/fv.cpp", "code/cpp/src/solvers/fv/fluxes.cpp: D_RUS", "code/cpp/src/system/equations.cpp", "code/cpp/src/etc/grid.cpp: boundaries", "code/cpp/src/solvers/utils.cpp"]}
{"id": "C96", "title": "The fluxes of Roe and Osher do not depend on the eigenvectors Eigen picks", "statement": "Wherever the eigenvectors of the matrices D_ROE and D_OSH decompose span the space of states, every choice of eigenvectors, of their order and of their lengths gives the same flux, no imaginary part is dropped, the dissipation is linear in the jump, and if all waves run one way it is the matrix times the jump, so that the flux is upwind. The eigenvectors span where the acoustic tensor is positive definite, without heat conduction, or with it where no tangential stress acts on the interface. Without MULTI the flux seen from the other side is the mirrored flux; two equal streams that meet head on exchange no mass.", "quantifier": "all states, materials, orders, eigenvalue solvers", "why_tests_cant": "the decomposition is chosen inside a library and not unique, with repeated eigenvalues in every state; complex arithmetic whose imaginary part is thrown away", "anchors": ["code/cpp/src/solvers/fv/fluxes.cpp: D_OSH (22-44), D_ROE (46-64)", "code/cpp/src/system/equations.cpp: system_matrix (169)"]}
{"id": "C97", "title": "The states between the two sides of an interface lie between them", "statement": "The quadrature nodes lie strictly inside the cell, for every order. So every state that D_OSH, D_ROE and Bint visit between two states lies in every convex set of states that contains both: density stays positive between positive densities, and every bound that holds on both sides holds in between.", "quantifier": "all orders and states", "why_tests_cant": "a statement about the zeros of a polynomial of every degree", "anchors": ["code/cpp/src/solvers/fv/fluxes.cpp: Bint (5-20), D_OSH (22-44), D_ROE (46-64)", "code/cpp/src/scipy/legendre.cpp", "code/cpp/src/etc/globals.cpp (24)"]}
{"id": "C98", "title": "Similar problems have similar solutions", "statement": "On cells k times as large, with relaxation times, viscosity, conductivity k times as large (for a power law fluid the viscosity k^n times), body force and reaction rates 1/k times as large, and final time k times as late, every run that iterator can make passes through the same fields as a run of the original problem, pass by pass, at k times the times, with the same snapshots in the same slots and the same result; and the other way round. timestep gives steps k times as long, and the fluxes, Jacobians and wave speeds are the same. There is one material, whose exponent n is 1 if it is a fluid without power law, and which is not at once a Bingham and a power law fluid.", "quantifier": "all positive k, initial fields, materials, boundary types, orders, lines and planes, all steppers and predictors (STIFF or not, NO_CORNERS or not), numbers of threads and schedules, numbers of passes", "why_tests_cant": "compares two runs for all data and all scales; a hidden length or time in any stage would break it", "anchors": ["code/cpp/src/solvers/iterator.cpp: timestep (54-83), iterator (85-170)", "code/cpp/src/solvers/steppers.cpp", "code/cpp/src/solvers/dg/dg.cpp", "code/cpp/src/solvers/split/homogeneous.cpp", "code/cpp/src/solvers/split/ode.cpp", "code/cpp/src/solvers/fv/fv.cpp", "code/cpp/src/system/variables/sources.cpp", "code/cpp/src/system/relaxation/analytic.cpp", "code/cpp/src/system/relaxation/numerical.cpp", "code/cpp/src/solvers/split/rk.cpp"]}
{"id": "C99", "title": "Galilean invariance: a moving observer sees the same physics", "statement": "An observer who moves with constant velocity adds it to the momentum and the kinetic energy of a state. Pressure, temperature, stress, acoustic tensors, reaction rates and relaxation times do not change, and max_abs_eigs changes only by the speed of the matter. A field that solves the equations the code discretises (flux, Bdot, source) still solves them in the observer's coordinates if the observer moves across the body force, and only then, since source lets body forces do no work. Without body forces the source half step of ode_launcher commutes with the change of observer, and so does left_star_state: the same number of refinement steps, the same interface state in motion, for every normal.", "quantifier": "all states of non-zero density, velocities, materials, differentiable fields, step lengths, normals, solvers and decompositions", "why_tests_cant": "a statement about all observers and all solutions; a stray absolute velocity in any term would break it", "anchors": ["code/cpp/src/system/equations.cpp: flux (11-48), source (50-67), Bdot (89-167)", "code/cpp/src/system/eig.cpp", "code/cpp/src/system/energy/eos.cpp", "code/cpp/src/system/variables/state.cpp", "code/cpp/src/system/variables/sources.cpp", "code/cpp/src/system/relaxation/analytic.cpp", "code/cpp/src/system/relaxation/numerical.cpp", "code/cpp/src/system/multi/riemann.cpp: left_star_state (203-233), star_stepper (156-201)", "code/cpp/src/system/multi/conditions.cpp"]}
{"id": "C100", "title": "First-order runs never empty a cell", "statement": "What a cell can lose through its faces in one step is, for every order, at most half of what moves outwards with the signal speed max_abs_eigs of the states on the two sides, as long as reconstruction and predictor leave positive densities at the faces. With N = 1 and the Rusanov flux that is less than the cell holds if no wave crosses a cell during the step (on a plane: if the shares of the axes add up to one), so densities that are positive at the start are positive after every pass and in every snapshot, with ader_stepper and with split_stepper, between any ends. timestep meets the condition with CFL < 1 on a line and CFL < 1/2 on a plane where the states at the faces are no faster than the cells.", "quantifier": "all positive fields, materials, boundary types, grid sizes, numbers of threads and schedules, numbers of passes", "why_tests_cant": "an inequality that has to survive every pass for all data; one cell in one step with a negative density makes pressures meaningless and the run NaN", "anchors": ["code/cpp/src/solvers/fv/fluxes.cpp: D_RUS (66-75)", "code/cpp/src/solvers/fv/fv.cpp", "code/cpp/src/system/eig.cpp: max_abs_eigs", "code/cpp/src/solvers/steppers.cpp", "code/cpp/src/solvers/iterator.cpp: timestep (54-83), iterator (85-170)", "code/cpp/src/etc/grid.cpp"]}
{"id": "C101", "title": "In first order level sets stay within their range; mass fractions do not", "statement": "Level sets are carried along by the velocity through Bdot. With N = 1 and the Rusanov flux the value of a level set after a step lies between the smallest and the largest value before it, in the cell and its neighbours, if no wave crosses half a cell during the step (on a plane: if the shares of the axes add up to one half); so level sets stay within their initial range in every pass and every snapshot, with both steppers, between any ends, as long as no reaction writes into them (it does without MULTI). The mass fraction has no such bound: its interface flux is that of the right state, counted half, so a cell with nothing burnt upstream of one with something burnt holds less than nothing after a step of any length, whichever flux is chosen, and only the clip at the end of the pass puts it back to zero or above.", "quantifier": "all fields of positive density, materials, boundary types, grid sizes, numbers of threads and schedules, numbers of passes, level sets", "why_tests_cant": "interfaces between materials are found from the signs of the level sets, so one new extremum anywhere in a run can create an interface from nothing; tests see a few interfaces and a few steps", "anchors": ["code/cpp/src/system/equations.cpp: flux (11-48), Bdot (89-167)", "code/cpp/src/solvers/fv/fluxes.cpp: Bint, D_RUS (66-75)", "code/cpp/src/solvers/fv/fv.cpp", "code/cpp/src/solvers/steppers.cpp", "code/cpp/src/solvers/iterator.cpp: iterator (85-170)", "code/cpp/src/etc/grid.cpp"]}
{"id": "C102", "title": "Second-order reconstruction keeps densities positive where neighbours differ by less than a factor of three, and makes level sets overshoot", "statement": "With N = 2 the reconstruction of a line stays, within each cell, at most half the larger of the two differences to the neighbours away from the cell average. So the reconstruction of positive densities is positive in the whole cell if both neighbours are smaller than three times the average; beyond that factor it is not: for every pair of cells with the left one more than three times as dense there is a right neighbour so dense that the density at the right face is negative. One step of split_stepper on a line with the Rusanov flux and HALF_STEP off therefore keeps densities positive if neighbouring densities, ghost cells included, differ by less than a factor of three and no wave crosses half a cell. Level sets do not stay within their range: where a uniform flow carries a slope onto a plateau, a step of any length takes the level set above the plateau, by an amount given in closed form.", "quantifier": "all data, positions in the line, boundary types, materials, time steps, numbers of threads and schedules", "why_tests_cant": "the factor of three separates states from which the scheme continues and states from which it computes square roots of negative numbers; a test would have to hit both sides of it, and the overshoot of a level set is tiny unless the slope is small", "anchors": ["code/cpp/src/solvers/weno/weno.cpp", "code/cpp/src/solvers/weno/weno_matrices.cpp", "code/cpp/src/solvers/steppers.cpp: split_stepper (50-66)", "code/cpp/src/solvers/fv/fv.cpp", "code/cpp/src/solvers/fv/fluxes.cpp: Bint, D_RUS (66-75)"]}
{"id": "C103", "title": "Which cells an interface state is computed from", "statement": "On a line that a material fills up to or from a surface, and on a plane that it fills up to a surface perpendicular to an axis, fill_ghost_cells gives every ghost cell of the EXPANSION_FACTOR * N layers the left_star_state of the last cell of the material and of the first cell that lies a whole cell behind the cell before the surface, in the same row, with the normal of the surface, and leaves all other cells alone. On any plane, a ghost cell copies the cell one step back along the normal if that belongs to an earlier layer; where neither probe finds the material, the neighbour against the larger component of the normal is used, with the normal along that axis, then the neighbour along the other axis, then a neighbouring interface cell. A layer of one row next to the low edge makes the code read before the start of the array.", "quantifier": "all sizes, cell widths, positions of the surface, layers, states, solver results and visiting orders", "why_tests_cant": "unbounded grids and positions; all schedules; the out-of-bounds read depends on the distance field", "anchors": ["code/cpp/src/multi/fill.cpp: boundary_inds (96-132), fill_boundary_inner (134-198), fill_neighbor_inner (237-265), fill_neighbor_cells (267-328), fill_ghost_cells (330-370)", "code/cpp/src/multi/functions.cpp: finite_difference"]}
{"id": "C104", "title": "Away from interfaces a pass with several materials is a pass with one", "statement": "In a cell of a line, or of a plane without NO_CORNERS, from which the stencil reaches only cells of one material, and next to no cell of another, a pass of iterator with several materials (fill_ghost_cells, a step of every material on its own grid with its own mask, make_u) gives the level sets the values that the step of that material alone would give them on the whole field; if the cell still belongs to the material afterwards, all its variables get those values. A step with a mask computes every selected cell from the cells within N of it, whatever the others hold. Where two materials meet in a point of a line, or along a column of a plane, such passes exist with split_stepper, for every position of the interface.", "quantifier": "all fields, level sets, interface solver results, masks, materials (vacuum included), orders, steppers, predictors that succeed around the cell, boundary types, numbers of threads and schedules, step lengths", "why_tests_cant": "states invented at an interface, masks of other materials or unfinished predictors could leak into cells far from the interface; all positions, sizes and schedules", "anchors": ["code/cpp/src/solvers/iterator.cpp: iterator (85-170), make_u (12-52)", "code/cpp/src/solvers/steppers.cpp", "code/cpp/src/multi/fill.cpp: fill_ghost_cells (330-370)", "code/cpp/src/etc/grid.cpp: extend_mask (176-229), boundaries"]}
{"id": "C105", "title": "In first order several materials keep level sets in range and cells filled", "statement": "On lines and planes with N = 1 and the Rusanov flux a pass with any number of materials leaves every level set within the range it had (after renormalize_levelsets), if on the grid of each material, interface states included, the densities around the cells it steps are positive and no wave crosses half a cell (on planes: the parts of a cell crossed along the two axes add up to at most a half). A cell has a positive density afterwards if the material it then belongs to was stepped there, that is, if its indicator was not positive in the cell or a neighbour; with waves that do not cross a whole cell.", "quantifier": "all fields, interface solver results with positive densities, numbers of materials, vacuum included, boundary types, grid sizes, steppers, numbers of threads and schedules", "why_tests_cant": "level sets are averaged over the materials that were stepped, so an extremum made by any of them would move an interface; the states come from different grids in every cell and pass", "anchors": ["code/cpp/src/solvers/iterator.cpp: iterator (85-170), make_u (12-52)", "code/cpp/src/multi/fill.cpp: fill_ghost_cells (330-370)", "code/cpp/src/solvers/steppers.cpp", "code/cpp/src/solvers/fv/fv.cpp", "code/cpp/src/solvers/fv/fluxes.cpp: Bint, D_RUS (66-75)"]}
{"id": "C106", "title": "With N = 1 the option NO_CORNERS has no effect", "statement": "With N = 1 every step on a plane with NO_CORNERS is a step without it and conversely, with any mask, stepper, boundary types and number of threads, and so is every run of iterator; although the reconstruction then leaves the corners of every chunk of rows without a value. So in first order what holds without the option holds with the shipped setting: planes without variation along y move like lines, and steps on periodic planes commute with shifts.", "quantifier": "all fields, masks, grid sizes, boundary types, fluxes, predictors, steppers, numbers of threads and schedules, numbers of steps", "why_tests_cant": "the values left out are uninitialised memory, which a test cannot tell from values that happen to be right; all chunk sizes and schedules", "anchors": ["code/cpp/src/solvers/weno/weno.cpp: weno_launcher (83-124)", "code/cpp/src/solvers/steppers.cpp: ader_stepper, split_stepper", "code/cpp/src/solvers/fv/fv.cpp: fv_launcher, centers2, interfs2", "code/cpp/src/options.h: NO_CORNERS (11)"]}
{"id": "C107", "title": "The two axes of a plane are not treated alike", "statement": "On a square grid with square cells, let an unstretched fluid at rest have a density that varies along x only, or in the same way along y only. Exchanging the axes turns one field into the other, so the densities after a step of iterator should be exchanged as well. With the Rusanov flux and N = 1 they are not: next to any jump that follows a cell of equal density the two densities differ after every step of positive length, because max_abs_eigs(Q, 1) leaves out the sound speed. What a step does to the density of such a field is given exactly: every face carries dt / (2 dx) times the larger of the two max_abs_eigs along its axis times the difference of the densities.", "quantifier": "all sizes, positions of the jump, densities, pressures, materials, open or periodic ends, steppers, settings of NO_CORNERS, time steps, numbers of threads and schedules", "why_tests_cant": "tests of planes vary data along x, or compare with stored results; a difference in the numerical diffusion along y looks like a coarser grid", "anchors": ["code/cpp/src/system/eig.cpp: max_abs_eigs", "code/cpp/src/solvers/fv/fluxes.cpp: D_RUS (66-75)", "code/cpp/src/solvers/fv/fv.cpp: interfs2", "code/cpp/src/solvers/steppers.cpp", "code/cpp/src/etc/grid.cpp: boundaries"]}
{"id": "C108", "title": "A pass carries information at most N cells, except that resetting the distortion acts everywhere at once", "statement": "Run iterator twice with one material, with the same step lengths, from fields that agree in the cells within m N of a cell (counted around the ends if they are periodic; on planes in each direction). After m passes the two results agree in that cell, whatever the number of threads of each, if in every pass either both or neither reset the distortion. That condition is needed: if one cell of one of the fields is contorted at the end of a pass, reset_distortion replaces the distortion of every cell, so that every sheared cell gets another value in the two runs however far away the contorted one is.", "quantifier": "all pairs of fields, numbers of passes, grid sizes, boundary types other than none, orders N, fluxes, predictors, steppers, step lengths, numbers of threads and schedules; planes without NO_CORNERS", "why_tests_cant": "no number of runs shows that cells outside the stencil have no influence; and the contorted cell that triggers a reset must be produced by a flow strong enough, after which every cell looks plausible", "anchors": ["code/cpp/src/solvers/iterator.cpp: iterator (120-151)", "code/cpp/src/system/utils.cpp: contorted (65-85), reset_distortion (44-63)", "code/cpp/src/solvers/steppers.cpp", "code/cpp/src/solvers/weno/weno.cpp", "code/cpp/src/solvers/fv/fv.cpp", "code/cpp/src/etc/grid.cpp: boundaries"]}
{"id": "C109", "title": "In first order results do not depend on the units of mass, length and temperature, apart from three built-in constants", "statement": "Write densities, velocities and temperatures in other units: times a, b and t, with pressures times a b^2, lengths times b, heat impulses times t / b, and the parameters of the material accordingly (together with the change of the unit of time of C98 these are all changes of units). Fluxes, nonconservative products, pressure, temperature, signal speeds, source terms, the source half step, the Rusanov flux, ghost cells, the end of a pass and timestep then give the same results in the other units. So with N = 1, split_stepper and the Rusanov flux a run of iterator in the other units takes the same time steps, and every field, snapshot and returned slot is the one of the first run in the other units. Three numbers in the code have hidden units: the 1e8 that limits the stress of power-law solids in theta1inv, the eps that weno.cpp adds to squares of differences of data, and the speed 1 of a MOVING wall. Wherever one of them acts, the results in other units are other ones.", "quantifier": "all changes of units, fields, materials of every equation of state (reactions and mixtures with MULTI), boundary types other than MOVING, grid sizes, cell sizes, final times, numbers of passes, threads and schedules", "why_tests_cant": "a test runs in one system of units; that no constant with hidden units decides anywhere needs all paths", "anchors": ["code/cpp/src/system/energy/mg.cpp", "code/cpp/src/system/equations.cpp", "code/cpp/src/system/functions/vectors.cpp", "code/cpp/src/system/variables/sources.cpp: theta1inv (13-81)", "code/cpp/src/system/eig.cpp: max_abs_eigs", "code/cpp/src/system/relaxation/analytic.cpp", "code/cpp/src/solvers/split/ode.cpp", "code/cpp/src/solvers/weno/weno.cpp", "code/cpp/src/etc/grid.cpp: MOVING (44-53)", "code/cpp/src/solvers/iterator.cpp"]}
{"id": "C110", "title": "What a split step of first order computes", "statement": "With N = 1 a step of split_stepper, with or without the half step, gives a cell the source half step of (the half-stepped cell, plus dt / (2 dx) times what each face brings in, minus what it takes out), where the states on the two sides of a face are the half-stepped padded cells, a face contributes the interface function of the two states minus (cell on its right) or plus (cell on its left) the nonconservative product of their mean and their difference, and the boundary conditions supply the padding; on planes with the faces along both axes and their cell sizes. Reconstruction, quadrature, the half step and NO_CORNERS leave no other trace. With a mask this holds in every cell selected.", "quantifier": "all fields, masks, grid sizes, cell sizes, boundary types other than none, interface functions, materials, settings of HALF_STEP and NO_CORNERS, time steps, numbers of threads and schedules", "why_tests_cant": "reconstruction, half step and quadrature are composed of tables and loops over nodes, and tests compare final results of whole runs; all sizes and schedules", "anchors": ["code/cpp/src/solvers/steppers.cpp: split_stepper", "code/cpp/src/solvers/split/homogeneous.cpp", "code/cpp/src/solvers/fv/fv.cpp", "code/cpp/src/solvers/fv/fluxes.cpp: Bint", "code/cpp/src/solvers/weno/weno.cpp", "code/cpp/src/etc/grid.cpp: extend_mask, boundaries"]}
{"id": "C111", "title": "Distances are exact on a line, and neighbouring cells differ by at most their spacing", "statement": "renormalize_levelsets replaces a level set by the result of distance. On a line this is exact: the distance of a cell is the least, over the cells next to a sign change, of the distance of that cell plus the spacing times the number of cells between them, with the sign of the level set. If the level set is negative up to some cell and positive behind it, the result is the signed distance of the cell centres from the zero of the straight line through the two values around the sign change, whatever the other values were. On lines and planes, away from the interface no distance exceeds that of a face neighbour by more than the spacing between the two cells, and some face neighbour is nearer to the interface.", "quantifier": "all level sets, grid sizes, cell sizes and contents of uninitialised memory", "why_tests_cant": "the order in which cells are accepted depends on all values; exactness for every field on every grid is not a matter of examples", "anchors": ["code/cpp/src/multi/functions.cpp: renormalize_levelsets (56-63)", "code/cpp/src/multi/pfmm.cpp: distance", "code/cpp/include/skfmm/base_marcher.cpp", "code/cpp/include/skfmm/distance_marcher.cpp"]}
{"id": "C112", "title": "A contact between two bodies is carried along exactly with their velocity", "statement": "Put two different unstretched materials side by side on a line, at equal pressure and velocity (with RIEMANN_STICK off only the velocity along the line need be equal), with any densities and equations of state, and with a level set that changes sign once between them and is otherwise arbitrary. With N = 1, split_stepper and the Rusanov flux, after any number of passes of iterator and in every snapshot the cells before the point x0 + v t hold exactly the state of the first material and the cells behind it exactly that of the second one, where x0 is the place of the surface in the beginning: nothing is smeared and no disturbance appears, also when the surface passes the centre of a cell. From the first pass on the level set of every cell but the two at the ends of the line is exactly its signed distance from that point. In particular a contact between two bodies at rest stays where it is.", "quantifier": "all pairs of materials, pressures, velocities, line lengths of at least four cells, positions of the surface, level sets with one change of sign, open ends or walls at rest, CFL up to 1, numbers of passes, threads and schedules, orders in which cells are visited, settings of RIEMANN_STICK and HALF_STEP; as long as the surface is two cells from the ends and does not end a pass within eps before the centre of a cell", "why_tests_cant": "that spurious currents are absent exactly, not only small, and for every pair of materials and every number of passes; the pass joins fast marching, ghost cells, star states, two steppers and make_u", "anchors": ["code/cpp/src/solvers/iterator.cpp: iterator (85-170), make_u (12-52)", "code/cpp/src/multi/fill.cpp: fill_ghost_cells (330-370), fill_boundary_cells, fill_neighbor_cells", "code/cpp/src/multi/functions.cpp: renormalize_levelsets (56-63), material_indicator", "code/cpp/src/solvers/steppers.cpp: split_stepper", "code/cpp/src/system/multi/riemann.cpp: left_star_state", "code/cpp/src/solvers/fv/fluxes.cpp: D_RUS, Bint"]}
{"id": "C113", "title": "On a plane the mirror image of a sheared body takes other time steps", "statement": "Reflecting a field at a plane orthogonal to the first axis (C95) should change nothing but the picture. The speed max_abs_eigs(Q, 1) along the second axis is however not the same for a state under simple shear and its mirror image: it is smaller for the one whose shear A01 is negative. So if all cells of a plane hold the same sheared material, and those of a second plane its mirror image, timestep gives the second one a strictly longer step, and the two runs are at different times after their first pass. Along the first axis the speeds agree (C95), so lines are not affected.", "quantifier": "all materials with shear stiffness and exponent beta not negative, densities, velocities, pressures with positive sound speed, sizes of the shear, grid sizes, cell sizes, CFL, numbers of passes before, viscous configurations without heat conduction", "why_tests_cant": "a negative result about every sheared state; in a run both pictures look plausible, and the cause is one misplaced column of a matrix of which only the spectral radius is used", "anchors": ["code/cpp/src/system/eig.cpp: Xi1 (8-27), Xi2, thermo_acoustic_tensor, max_abs_eigs", "code/cpp/src/solvers/iterator.cpp: timestep", "code/cpp/src/system/waves/shear.cpp"]}
{"id": "C114", "title": "A front parallel to an axis of a plane gets the exact distances of the line", "statement": "If the level set of a plane depends on one of the two coordinates only, has an interface, and takes no values in (0, eps], then distance, and with it renormalize_levelsets, returns in every cell the value it returns for the line: nothing varies along the other coordinate, and the spacing along it has no influence. In particular, if the level set is negative up to some column and positive behind it, every cell gets exactly the signed distance of its centre from the straight line at which the linear interpolation between the two columns vanishes, along either axis.", "quantifier": "all plane sizes, spacings, level sets of the described kind with any number of fronts, contents of uninitialised memory", "why_tests_cant": "every cell may be computed from one, two or three neighbours, depending on the order in which the heap hands out cells at equal distance; that the result never depends on it needs all orders and sizes", "anchors": ["code/cpp/src/multi/pfmm.cpp: distance", "code/cpp/src/multi/functions.cpp: renormalize_levelsets (56-63)", "code/cpp/include/skfmm/base_marcher.cpp", "code/cpp/include/skfmm/distance_marcher.cpp"]}
{"id": "C115", "title": "Distances depend on the level set and the grid only, and share their symmetries", "statement": "With equal spacings along both axes, the distances returned by distance (and stored by renormalize_levelsets) satisfy in every cell away from the interface the upwind form of the discrete eikonal equation with the final values of all its neighbours, although they are computed from the neighbours accepted before it, and this equation with the values at the interface has one solution only. So the result does not depend on uninitialised memory or on the order in which the heap hands out cells at equal distance; multiplying a level set by a positive number changes nothing, exchanging inside and outside exchanges the signs; a mirror image of the level set along either axis gets the mirror image of the distances, and exchanging the axes exchanges the distances. With unequal spacings the equation fails in general: a neighbour farther from the surface than the cell itself still counts, and the distance can come out below the spacing to a neighbour on the surface even if that is the nearest point of it.", "quantifier": "all lines and planes of all sizes, equal spacings, level sets with an interface and without values in (0, eps], contents of uninitialised memory; the negative part for all spacings of ratio above two", "why_tests_cant": "ties are decided by the heap and by the order of the neighbours; that no symmetry of the data is ever broken by them needs all fields and all orders", "anchors": ["code/cpp/src/multi/pfmm.cpp: distance", "code/cpp/src/multi/functions.cpp: renormalize_levelsets (56-63)", "code/cpp/include/skfmm/base_marcher.cpp", "code/cpp/include/skfmm/distance_marcher.cpp", "code/cpp/include/skfmm/heap.cpp"]}
{"id": "C116", "title": "Distances on planes are not too small, and along straight fronts too large by a factor of at most the square root of two", "statement": "With equal spacings: if the level set is linear, no cell gets less than the distance of its centre from the straight line on which the level set vanishes, and no cell gets more than the distance from it along its row or its column, if that meets the line inside the grid; along the steeper axis this is at most the square root of two times the true distance. The factor is attained: next to a diagonal front every distance is too large by exactly the square root of two, on all grids. If the level set is convex, with any Lipschitz constant k, no cell outside gets less than the level set divided by k; for a disc no cell outside gets less than its distance from the circle.", "quantifier": "all plane sizes, equal spacings, slopes and positions of the front, centres and radii of the disc, convex level sets, positive factors of the level set, contents of uninitialised memory; level sets with an interface and without values in (0, eps]", "why_tests_cant": "error bounds for every direction of the front and every grid; refinement tests see errors shrink with the cell size and not a constant factor next to the surface", "anchors": ["code/cpp/src/multi/pfmm.cpp: distance", "code/cpp/src/multi/functions.cpp: renormalize_levelsets (56-63)", "code/cpp/include/skfmm/base_marcher.cpp", "code/cpp/include/skfmm/distance_marcher.cpp: initalizeFrozen"]}
{"id": "C117", "title": "Renormalising a level set again keeps straight and diagonal fronts, but moves oblique ones and thins layers of one cell", "statement": "iterator calls renormalize_levelsets in every pass, also when nothing moves. With equal spacings, the distances of the distances are the distances, cell by cell, if the neighbours to which the level set of a cell changes sign all have the same value: on lines, if no cell has changes of sign on both sides; on planes, for fronts along a diagonal. It is not so for fronts in other directions: a level set proportional to 2 i + j - 1/2 on two by two cells has after k + 1 calls its zero between the cells (0,0) and (0,1) at distance h / (4/3 + 2/3 / 4^k) from the second one, which grows with every call from h/2 towards 3h/4, so the surface moves by a quarter of a cell although nothing flows. Nor is it so for a layer one cell thick on a line of any length: the cell inside keeps the distance h t from the nearer surface, and its neighbour on the other side gets distances h / (1/(1-t) + t^k (1/u - 1/(1-t))), which grow with every call until the layer is symmetric about the centre of its cell.", "quantifier": "all lines and planes, equal spacings, level sets of the described kinds, contents of uninitialised memory; for the negative part all cell sizes, factors of the level set and numbers of calls", "why_tests_cant": "that a field is a fixed point for all sizes, and a drift whose total is reached only after many calls and is smaller than a cell", "anchors": ["code/cpp/src/multi/functions.cpp: renormalize_levelsets (56-63)", "code/cpp/src/solvers/iterator.cpp: iterator", "code/cpp/src/multi/pfmm.cpp: distance", "code/cpp/include/skfmm/distance_marcher.cpp: initalizeFrozen (90-150)"]}
{"id": "C118", "title": "A contact across a plane is carried along exactly, and materials slide along it freely", "statement": "C112 on planes: put two different unstretched materials side by side on a plane, at equal pressure and velocity across their surface (and equal velocity along it if RIEMANN_STICK is set), with a level set that depends on the first coordinate only, changes sign once and is otherwise arbitrary. With N = 1, split_stepper and the Rusanov flux, after any number of passes of iterator and in every snapshot the rows of cells before the line x0 + v t hold exactly the state of the first material and those behind it exactly that of the second one, where v is the velocity across the surface; velocities along the surface have no effect, and with RIEMANN_STICK off, as in options.h, the two materials may slide past each other at any speed and go on doing so. No waves, no smearing and no corrugation of the surface appear, whatever the order and the threads in which cells are visited. From the first pass on the level set of every cell but those of the first and last row is exactly its signed distance from that line. The time steps of timestep with CFL up to 1 are short enough, and are the largest that obey its condition with the speeds of the two materials.", "quantifier": "all pairs of materials, pressures, velocities, planes of at least four rows of at least three cells, spacings, positions of the surface, level sets with one change of sign, open ends or walls that mirror the states, periodic sides included, CFL up to 1, numbers of passes, threads and schedules, orders in which cells are visited, settings of NO_CORNERS, RIEMANN_STICK and HALF_STEP; as long as the surface is two cells from the ends and does not end a pass within eps before the centres of a row of cells", "why_tests_cant": "a corrugation of rounding size and one that grows look the same in a short run; that none arises, for every pair of materials and every order of visits, needs all of them", "anchors": ["code/cpp/src/solvers/iterator.cpp: iterator (85-170), make_u (12-52), timestep", "code/cpp/src/multi/fill.cpp: fill_ghost_cells (330-370), fill_boundary_cells, fill_neighbor_cells", "code/cpp/src/multi/functions.cpp: renormalize_levelsets (56-63), material_indicator, finite_difference", "code/cpp/src/solvers/steppers.cpp: split_stepper", "code/cpp/src/system/multi/riemann.cpp: left_star_state", "code/cpp/src/solvers/fv/fluxes.cpp: D_RUS, Bint"]}
{"id": "C119", "title": "Bodies that slide along each other keep the shear stress they had at their surface", "statement": "With RIEMANN_STICK off, as in options.h, the surface between two materials should carry no shear traction: this is what slip_bcs imposes and what one step of star_stepper achieves to first order (C57). check_star_convergence however compares only the components across the surface. So if the tractions and velocities of the two states agree across the surface, left_star_state makes no step and returns the left state with whatever shear traction it had. In particular, if two halves of any material at rest, of equal density and energy, are sheared by a and -a along the surface between them, both halves keep their states, and the tractions on the two sides of the surface are rho c_s^2 (a + 2 a^3 / 3) along it with opposite signs: neither zero nor equal.", "quantifier": "all pairs of materials with positive rho0 and b02, all pairs of states with tractions and velocities that agree across the surface, all unit normals, tolerances and settings of RIEMANN_RELAXATION; for the two halves all materials, densities, energies and shears", "why_tests_cant": "a test would have to think of sheared bodies in balance across their surface; for bodies that are not in balance at first the solver does remove the shear", "anchors": ["code/cpp/src/system/multi/riemann.cpp: left_star_state (203-233), check_star_convergence (26-77), star_stepper", "code/cpp/src/system/multi/conditions.cpp: slip_bcs", "code/cpp/src/options.h: RIEMANN_STICK"]}
{"id": "C120", "title": "It does not matter in which order the materials are numbered", "statement": "With LSET level sets there are LSET + 1 materials, numbered by how many level sets of a cell are not negative. Listing the materials from the last to the first, negating all level sets and listing them from the last to the first describes the same bodies. If no level set of any cell is exactly zero, fill_ghost_cells then gives every material, vacuum excepted, exactly the same states in all cells, the same mask, and level sets that are again negated and reversed; it reads outside the grid or divides by a zero gradient in the same cases. This follows because renormalize_levelsets gives level sets of opposite sign the opposite distances, because material_indicator passes the same field to distance, and because left_star_state neither reads nor changes level sets (materials whose energy depends on a mass fraction need MULTI; without it the code would read the first level set in its place). make_u, which joins the grids of the materials after a step, likewise gives the same states with negated and reversed level sets. A cell in which all level sets are zero is of the last material in both descriptions, so there the numbering does matter.", "quantifier": "all numbers of materials and level sets, fields, materials, vacuums, lines and planes of all sizes, orders in which cells are visited, normals, settings of RIEMANN_STICK, RIEMANN_RELAXATION and THERMAL, whatever distance and finite_difference return; with the call of renormalize_levelsets included for cells of equal sides, level sets that all change sign and have no values in [-eps, eps]", "why_tests_cant": "a symmetry between two inputs over all paths of the ghost fluid method: tests fix one numbering, and a slip in one of the many comparisons with mat, or a level set read by the Riemann solver, shows only in the other", "anchors": ["code/cpp/src/multi/fill.cpp: fill_ghost_cells (330-370), fill_boundary_inner (134-198), fill_neighbor_cells", "code/cpp/src/solvers/iterator.cpp: make_u (12-42)", "code/cpp/src/multi/functions.cpp: material_indicator (65-82), renormalize_levelsets (56-63)", "code/cpp/src/system/multi/riemann.cpp: left_star_state (203-233)", "code/cpp/src/system/functions/vectors.cpp: get_material_index (24-31)"]}
{"id": "C121", "title": "Memory that was not written is not read", "statement": "ader_stepper allocates the output of the predictor without initialising it, and the predictor skips the cells outside the mask. fv_launcher reads its input only in cells of the mask, so if the predictor delivers a result in every cell of the mask, the changes a step makes to u are the same whatever the memory held before. The condition is needed: where the predictor writes nothing in the only active cell of a line (C30 shows that this happens), the change of that cell is computed from what the memory held.", "quantifier": "all lines and planes, masks, data, orders of the scheme, predictors, fluxes and source terms, contents of uninitialised memory, settings of NO_CORNERS", "why_tests_cant": "in a test the memory usually holds zeros or the values of the last step, so a read of it gives a plausible result and the same one each time", "anchors": ["code/cpp/src/solvers/steppers.cpp: ader_stepper (10-22)", "code/cpp/src/solvers/fv/fv.cpp: centers1_inner, interfs1_inner, centers2_inner, interfs2_inner, fv_launcher", "code/cpp/src/solvers/dg/dg1.cpp: predictor1 (58-114)", "code/cpp/src/solvers/dg/dg2.cpp: predictor2"]}
