# Formal model of the GPR solver (`/repo/code/cpp`)

The C++ library `GPRpy` solves the Godunov-Peshkov-Romenski equations of continuum mechanics on one- and two-dimensional
grids: WENO reconstruction, a discontinuous Galerkin predictor or an operator split step, a finite-volume update, level sets
with fast marching, a Riemann solver at material interfaces.  This directory contains a model of that library in Lean 4 and
proofs of the properties listed in `properties.jsonl`.

## 1. How the model is organised

Lean 4.33 and Mathlib, imported one module at a time.  Each area is a directory `lean/Verif/<Area>/`:

* `Model.lean` (in `Sys` several files): definitions transcribed function by function from the C++; the comment of each one
  cites file and lines and says what is simplified;
* `Spec.lean`: separate specification vocabulary, where one is needed;
* the other files: lemmas, the property theorems named in `MANIFEST.json`, and examples showing that the hypotheses of the
  theorems can be met.

### Numbers
* Code that only moves data (heap, masks, chunks, steppers, bookkeeping) is modelled over an arbitrary type or linear order;
  these theorems do not depend on how doubles round.
* Algebraic code is modelled over an arbitrary field, or over `ℝ` when roots, powers, exponentials or derivatives occur.
  **Rounding is not modelled.**
* Where control flow reacts to NaN or infinity (time step, predictor, RK retry, line search, Newton termination, relaxation,
  interface solver) numbers carry an explicit NaN (`Option ℝ`) or NaN and signed infinities (`Newton.Ext`).
* Reads of uninitialised storage return a parameter (`junk`, `garbage`, `m0`), over which the theorems quantify.  Indices out
  of range, division `0/0` and thrown exceptions are separate outcomes (`none`, `oob`, `throws`, ...).
* Lean's division is total.  Theorems about real formulas state the non-zero conditions as hypotheses; where a zero divisor
  decides what happens (for example the time scale of relaxation) the model has an explicit test.

### Compile-time options
`VISCOUS`, `THERMAL`, `MULTI`, `LSET`, `NO_CORNERS`, `DESTRESS`, `ROTATE_DISTORTION`, `RIEMANN_STICK`, `RIEMANN_RELAXATION`,
`RK_STEPS`, `STAR_TOL`, `N` are parameters of the model (`Sys.Cfg` and arguments).  A theorem without a hypothesis on an option
holds for every value; otherwise the hypothesis names the setting.  Shipped values: `VISCOUS`, `NO_CORNERS`,
`RIEMANN_RELAXATION` on, the other switches off, `LSET = 2`, `N = 2`.

### Threads
The OpenMP loops are modelled as sets of atomic actions executed in any order (`Step.Para`, `Fill`).  Races inside one action
are not modelled; section 5 names the one we found.

## 2. Trusted base

* Lean's kernel.
* The axioms `propext`, `Classical.choice` and `Quot.sound`.  No theorem depends on any other (section 6 lists them).  There is
  no `sorry`, `admit`, `native_decide`, `bv_decide` and no axiom of ours.
* The reading of the C++ in the model files: nothing was compiled or run.  Index arithmetic is on unbounded integers except
  where a comment says otherwise; `int` overflow is not modelled.
* Library routines enter as parameters with a stated contract, never as axioms, and each contract is shown to be satisfiable:
  Eigen's `JacobiSVD` (`Grid.IsSVD`, by `svd_exists`), `EigenSolver` (`Eig`, `Riemann.Solvers.Ok`, by `exists_ok`), `HouseholderQR` and
  least squares (`Krylov.IsQR`, `IsLsq`, by `isQR_exists`, `isLsq_exists`), `colPivHouseholderQr().solve`, eigenvalues of the
  companion matrix (`Legendre`), LU solves in the WENO and DG set-up (`Weno.setup_exists`, `Dg.tab_exists`).

## 3. What is modelled

| source | model | remarks |
|---|---|---|
| `include/skfmm/heap.cpp` | `Heap` | whole class; exceptions and array overruns are outcomes |
| `include/skfmm/base_marcher.cpp`, `distance_marcher.cpp`, `src/multi/pfmm.cpp` | `March` | order 1, not periodic, as `distance` calls them; any dimension through a neighbour relation, instantiated to the address arithmetic of 1D and 2D grids |
| `src/etc/grid.cpp` | `Grid` | all functions, `DESTRESS` included |
| `src/etc/globals.cpp`, `src/etc/types.h`, `src/options.h` | parameters of the areas that use them | |
| `src/multi/functions.cpp`, `src/multi/fill.cpp` | `Fill` | cell visits are atomic |
| `src/scipy/poly.cpp` | `Poly` | |
| `src/scipy/legendre.cpp` | `Legendre` | eigenvalues through their contract |
| `src/scipy/lgmres.cpp` | `Krylov` | `lgmres` (`Model`), `lgmres_wrapper` with a preconditioner (`Precond`) |
| `src/scipy/newton_krylov.cpp` | `Newton` | |
| `src/solvers/iterator.cpp`, `utils.cpp` | `Iter`, put together in `Run` | printing left out |
| `src/solvers/steppers.cpp`, `split/homogeneous.cpp` | `Step` | OpenMP schedules as interleavings |
| `src/solvers/fv/*.cpp` | `Fv` | |
| `src/solvers/weno/*.cpp` | `Weno` | |
| `src/solvers/poly/*.cpp` | `Basis`, `Dg` | |
| `src/solvers/dg/*.cpp` | `Dg` | |
| `src/solvers/split/ode.cpp`, `rk.cpp`, `src/system/relaxation/*.cpp` | `Relax` | |
| `src/solvers/split/numeric.cpp` | `Stiff` | |
| `src/system/energy/*.cpp`, `waves/shear.cpp`, `functions/*.cpp`, `variables/state.cpp`, `equations.cpp`, `jacobians.cpp`, `system/objects.h` | `Sys` | |
| `src/system/energy/multi.cpp` | `Mix` (the solve), `Sys` (its use) | Newton solver of `Newton` |
| `src/system/variables/sources.cpp` | `Relax` | |
| `src/system/eig.cpp`, `waves/speeds.cpp` | `Eig` | eigenvalue routine through its contract |
| `src/system/multi/rotations.cpp` | `Rot` | |
| `src/system/multi/riemann.cpp`, `conditions.cpp`, `eigenvecs.cpp` | `Riemann` | `eigen` for direction 0, the only one its callers use |

Not modelled: `src/etc/debug.cpp` and all printing, `bindings/bindings.cpp` (conversion between numpy arrays and Eigen types),
the vendored libraries (Eigen, pybind11, boost, and the parts of scikit-fmm that `distance` does not reach: second order,
travel time, extension velocities, periodic grids), memory allocation, run time, rounding.  The Python code beside the C++
library is out of scope.


## 4. Properties, proofs and their limits

Full statements are in `properties.jsonl`.  `proved`: the statement holds of the model as written.  `partial`: part of it is
proved, or the statement is false of the code; then the theorems with `false`, `unwritten`, `overrun`, ... in their names prove
the negation with a witness, and the positive theorem carries the hypothesis that makes it true.  Theorem names are relative
to `Verif`.

| id | property | status | how it is proved | limits |
|---|---|---|---|---|
| C01 | Heap pop returns a minimum of the live entries | proved | refinement of the array heap to a finite map from handles to values; invariant: heap order and bijective back-pointers, preserved by every call and call sequence | Distances over any linear order (no NaN). |
| C02 | Heap handles stay attached to their entry | proved | refinement of the array heap to a finite map from handles to values; invariant: heap order and bijective back-pointers, preserved by every call and call sequence |  |
| C03 | Heap calls stay inside their buffers | partial | same invariant with capacity bounds; the overrun is a reachable call sequence for every capacity | The full claim is false of the code: push checks the live count but stores at the total-push index; overrun proved reachable for every capacity. In-bounds proved while total pushes <= capacity. |
| C04 | Signed distance keeps the sign of the level set | partial | loop invariant of the marcher (frozen, narrow, far) over a neighbour relation, with the local quadratic solved exactly; instantiated to 1D and 2D addresses | 1D and 2D grids, any size and spacing, fields with an interface and no value in (0, eps]. The full claim is false of the code: a value in (0, eps] ends with the wrong sign, and a field without interface becomes all zero. |
| C05 | Fast marching terminates, reaches every cell and never overflows its queue | partial | decreasing measure on unfrozen cells and the heap invariant of C03 | Termination, queue safety and no double acceptance hold for every field (any dimension). Completeness needs the absence of values in (0, eps], which the code can skip. |
| C06 | Fast marching accepts cells in order of distance and solves the discrete eikonal equation | partial | loop invariant of the marcher (frozen, narrow, far) over a neighbour relation, with the local quadratic solved exactly; instantiated to 1D and 2D addresses | Ordered acceptance (every cell is the nearest of those not accepted before) and the discrete eikonal equation over the cells accepted before, for fields without values in (0, eps]; real arithmetic. |
| C07 | Interface cells get the linear-interpolation distance | proved | characterisation of the interface initialisation loop cell by cell | Every field, any dimension; real arithmetic. |
| C08 | Re-distancing never changes which material a cell belongs to | partial | corollary of C04 when an interface exists; witness otherwise | True when every level set has an interface and no value in (0, eps]; false otherwise: a level set negative everywhere is zeroed and the material index of every cell changes. |
| C09 | Boundary padding copies the interior unchanged | proved | index map of both passes of `boundaries`, by cases on the axis | Cell values are opaque; every boundary code, 1D and 2D. |
| C10 | Every ghost cell is the image of a definite interior cell | proved | index map of both passes of `boundaries`, by cases on the axis | Needs every axis to have at least N cells; narrower periodic axes read outside the array (boundaries_narrow_ub). Unknown boundary codes leave ghosts unset. |
| C11 | Wall ghosts keep density, internal energy and volume ratio and impose the wall velocity | partial | algebra of the wall maps; for `DESTRESS` a stretched state and all its decompositions | Density, total energy, pressure, /det A/ and wall velocity with DESTRESS off (the shipped setting). With DESTRESS on /det A/ is not preserved, proved for a stretched state and every valid singular value decomposition. |
| C12 | extend_mask marks exactly the masked cells and their face neighbours | proved | pointwise characterisation of the loops |  |
| C13 | Worker chunks partition the grid | proved | integer division arithmetic, any number of rows and threads | Integer overflow of ithread*nx is not modelled. |
| C14 | Parallel stepping equals serial stepping | partial | locality of reconstruction, predictor and update; workers' writes in any interleaving; witness for the corner rule | Holds in 1D, and in 2D with NO_CORNERS off, for every interleaving of the workers' writes. False in 2D for the shipped NO_CORNERS = true: the reconstruction at the ends of a chunk drops stencils, proved with a four-row grid and two workers. |
| C15 | The finite-volume update is conservative | proved | telescoping sums over the update loop, boundary fluxes left over | Real arithmetic. The components without non-conservative product are density, energy and momentum (gpr_conservative_components). |
| C16 | A uniform equilibrium state is a fixed point of the scheme | proved | composition of boundary, WENO, predictor and update on constant grids, with the modelled Newton solver | Real arithmetic. ader1_uniform and ader2_uniform take any equations and assume a nonlinear solver that stays at a root; ader1_equilibrium and ader2_equilibrium are for the actual equations and the modelled Newton solver, for every inner linear solver. Two dimensions under the stencil-availability condition of C22. |
| C17 | Cells outside the mask are never written by the finite-volume update | proved | pointwise characterisation of the loops |  |
| C18 | Interface fluxes are consistent | partial | algebra of the three flux functions at equal states | True without the MULTI feature. False with it: flux assigns the mass-fraction component instead of adding. With VISCOUS off Bdot leaves its output unset. |
| C19 | WENO reconstruction is conservative | proved | linear algebra of the stencil systems: each solve has the right cell means, and is unique; weights sum to one | Real arithmetic; the indicator matrix starts from zeroed storage (see C21); two dimensions under the exact stencil-availability condition of C22. |
| C20 | WENO reproduces polynomials | proved | linear algebra of the stencil systems: each solve has the right cell means, and is unique; weights sum to one | Same conditions as C19. |
| C21 | WENO weights are strictly positive and the oscillation indicator is a semi-norm | partial | Gram matrix of derivatives on the unit cell | True when the storage of the matrix held zeros. False as claimed: oscillation_indicator accumulates into an uninitialised matrix, and some contents make a weight divide by zero. |
| C22 | WENO is defined on every grid | partial | which of the four stencils exist as a function of grid size | Exact characterisation of the grids on which every cell has a stencil. The full claim is false: with corners off, one-row grids or chunks at N=2 divide 0 by 0. |
| C23 | Polynomial product evaluates to the product | proved | coefficient vectors refine Mathlib's `Polynomial` | Any field. |
| C24 | Polynomial differentiation and integration are exact inverses | proved | coefficient vectors refine Mathlib's `Polynomial` |  |
| C25 | Legendre series evaluation and differentiation are correct | proved | Clenshaw recurrence invariant against Legendre polynomials |  |
| C26 | Gauss-Legendre nodes and weights integrate polynomials exactly | proved | orthogonality of Legendre polynomials and the Gauss quadrature theorem | Exact arithmetic; the eigenvalue solver is assumed to return the sorted roots of the characteristic polynomial of the companion matrix. N=0 is an index error. |
| C27 | The nodal basis is cardinal and its end and derivative tables are exact | proved | Lagrange interpolation |  |
| C28 | kron is the Kronecker product | proved | mixed-radix index algebra | Lists of two or more matrices, as every caller passes; a shorter list indexes before the start of the list. |
| C29 | The DG mass-stiffness matrices are the Galerkin integrals | proved | quadrature exactness of C26 and integration by parts; positive definiteness for invertibility | Exact arithmetic. |
| C30 | The predictor output of every active cell is defined and solves the predictor equations to tolerance | partial | outcome analysis of the iteration with NaN; the fixed points are the zeros of the equations | The tolerance and fixed-point parts hold. The full claim is false: an iteration that does not converge in DG_IT passes leaves the cell unwritten. |
| C31 | Time stepping never passes the final time and respects the CFL bound | partial | induction over runs (relation `Reach` of the loop of `iterator`) | Exact arithmetic. The step never passes tf, is positive, and respects the bound for every speed max_abs_eigs returns; a run that ends without NaN has t = tf. False where max_abs_eigs is wrong: in two dimensions the step exceeds the CFL bound of the true wave speed (timestep_second_axis_false), and NaN speeds are ignored (timestep_nan). |
| C32 | Snapshots are taken in order, once each, and the last one is the final state | partial | induction over runs (relation `Reach` of the loop of `iterator`) | Order, once each, and the final slot hold for every run; writes stay inside the slots for runs without NaN. False with NaN: the exact condition is overrun_iff, a run that meets it is overrun_witness. |
| C33 | Concentration limiting keeps mass fractions in range | proved | loop characterisation per cell | Real arithmetic (no NaN). |
| C34 | Merging material grids takes each cell from its own material | proved | loop characterisation per cell | With more materials than level sets, which make_u needs: otherwise it indexes past the list (make_u_overrun). |
| C35 | Level-set indicator and material index agree | partial | characterisation of the sign and neighbour tests, induction over layers | Proved for one more material than level sets, for the field before redistancing; after `distance` for fields with an interface in the domain and no value in (0, eps] (distance_index_partial). False with two materials and two level sets (indicator_two_false). |
| C36 | Interface cells are exactly the cells with a neighbour across the interface | proved | characterisation of the sign and neighbour tests, induction over layers | Exact signs of real fields. |
| C37 | Ghost layers are numbered by distance from the interface | proved | characterisation of the sign and neighbour tests, induction over layers | For every run in which the sources of the copies lie in the grid (layers_defined); walk_outside shows that only outside cells are numbered when the mask comes from find_interface_cells. |
| C38 | Pressure and internal energy are inverse; conserved and primitive forms round-trip | partial | field algebra; exact defect where the round trip fails | The equation-of-state inverses hold always; the state round trips hold for viscous non-mixtures whose reaction setting matches MULTI. False otherwise, with the exact defect: inert material under MULTI, VISCOUS off, mixtures. Real arithmetic. |
| C39 | Equation-of-state derivative functions are the derivatives | partial | `HasDerivAt` for every function along every curve of states | Every listed function on the regular range of every equation of state; dTdrho is the derivative iff Tref is 0 (it omits Tref times the derivative of phi). dEdrho and dEdp for non-mixtures. |
| C40 | Stress and its derivatives are consistent with the energy | proved | `HasDerivAt` for every function along every curve of states | Derivatives along arbitrary curves of states; shear speed b0 not zero (dsigmadrho divides by it). Real arithmetic. |
| C41 | The system matrix is the quasi-linear form of the equations | partial | chain rule over all components and comparison of matrices entry by entry | Viscous non-mixtures of every equation of state, with or without THERMAL (Tref = 0) and MULTI. False with THERMAL and Tref not 0, and with VISCOUS off. Derivatives along arbitrary differentiable curves of states. |
| C42 | The non-conservative product is linear and matches its matrix | partial | chain rule over all components and comparison of matrices entry by entry | True for every configuration with distortion. With VISCOUS off Bdot writes nothing although block transports the level sets. |
| C43 | rotation_matrix is a proper rotation taking the normal to the x axis | proved | matrix identities of orthogonal matrices; invariance of determinant, trace and norm | Exact arithmetic; unit vectors of length 1, 2 or 3. |
| C44 | Thermodynamics is rotation invariant | partial | matrix identities of orthogonal matrices; invariance of determinant, trace and norm | Viscous non-mixture configurations, with or without THERMAL and MULTI. With VISCOUS off rotate_tensors overwrites level-set components. |
| C45 | Wave speeds do not depend on which axis a wave travels along | partial | block structure of the quasi-linear matrix reduces its spectrum to the acoustic tensor; bound by the sum of squares | The bound holds along the first axis for every regular non-mixture state, with or without THERMAL: every complex eigenvalue of system_matrix(Q,0) has modulus at most max_abs_eigs(Q,0). False along the second axis: Xi1 and Xi2 put the pressure and density terms in column 0, so max_abs_eigs(Q,1) leaves out the sound speed; proved for every unstretched state. |
| C46 | Distortion renormalisation restores the density constraint | partial | determinant algebra and AM-GM on singular values | Every viscous configuration with more materials than level sets; exact arithmetic. False with VISCOUS off: the call then overwrites level sets and the next cell. |
| C47 | Distortion reset keeps pressure and removes shear | partial | determinant algebra and AM-GM on singular values | Density, momentum, pressure and isotropy in every viscous configuration. The last part needs vacuum cells to hold singular distortions, as make_u leaves them: contorted does not skip vacuum, reset_distortion does (reset_vacuum_false). |
| C48 | The contortion test measures anisotropy | partial | determinant algebra and AM-GM on singular values | For every valid singular value decomposition. Vacuum cells count as well, so 'matter cell' in the statement is false (reset_vacuum_false); cells with singular distortion never count. |
| C49 | rotate_distortion keeps the metric tensor | proved | determinant algebra and AM-GM on singular values | Every valid singular value decomposition, viscous configurations. The sign of det A may flip (rotate_density_false). |
| C50 | Strain relaxation keeps the volume ratio | proved | closed formulas of the relaxation through the cubic in trigonometric form | For every decomposition and every step whose result is a number; relax_nan shows a strained fluid for which it is not. |
| C51 | Strain relaxation over zero time is the identity | partial | closed formulas of the relaxation through the cubic in trigonometric form | relax_zero_iff states exactly for which distortions it holds (singular values positive and in descending order, time scale defined). It fails whenever the product of the deviations of the squared stretches from their mean is negative and the two largest stretches differ, because the angle is taken with atan of a quotient; relax_zero_false gives stretches 2, 3/2, 1/3. |
| C52 | Reaction progress stays in [0, lambda] | proved | sign analysis of the rate; Taylor polynomial of the exponential for the scheme, convergence for linear equations | Real arithmetic with NaN; rates of the three reaction types with non-negative coefficients. A rate that is NaN counts as complete burning (nan_burns), which happens for every expanded ignition-and-growth state with a fractional exponent (expansion_burns). |
| C53 | The Runge-Kutta integrator is classical RK4 and the retry loop stops | proved | sign analysis of the rate; Taylor polynomial of the exponential for the scheme, convergence for linear equations | Exact arithmetic, NaN as a distinct value. The launcher gives up after 64 steps per interval and returns NaN then. |
| C54 | Newton-Krylov stops early only at a root | proved | loop invariants with the inner linear solver as a parameter | Numbers are reals with NaN and signed infinities. Eigen leaves the maximum norm of a vector with NaN open: with a norm that propagates NaN the residual is within the tolerance (early_stop_nan), otherwise it is or it contains a NaN (early_stop). |
| C55 | The line search terminates with a sufficient-decrease step or the full step | proved | loop invariants with the inner linear solver as a parameter | Numbers are reals with NaN and signed infinities; at most seven merit evaluations after the first are needed for any merit function. |
| C56 | Newton-Krylov honours the step tolerance | partial | loop invariants with the inner linear solver as a parameter | False of the code: the step is declared again inside the loop, so the test always sees the initial value, the largest double. stop_cause states what does stop the solver; step_tolerance_false gives, for every smaller step tolerance, a run that goes on with residual in tolerance and zero steps. |
| C57 | Star states satisfy the interface conditions | partial | linear algebra of the boundary-condition rows | Velocities hold exactly, tractions in the linearisation along the step in primitive variables. False for slip with heat conduction: both rows of the right-hand matrix are written into the left-hand one and the other stays uninitialised (slip_thermal_false). Eigen's solvers enter through their contracts (Solvers.Ok, satisfiable by exists_ok). |
| C58 | Material-interface solver always returns a usable state | proved | invariant of the star loop with NaN | Real arithmetic with NaN; a pair counts as NaN as soon as one side is. The test for NaN precedes the rotation back, so an infinite component can still turn into a NaN. Materials with b02 = 0 never get an interface state (left_star_inviscid). |
| C59 | Level-set gradients are exact on affine fields and normals are unit vectors | proved | index algebra of one-sided and central differences | Exact arithmetic. With two cells along an axis the result is uninitialised memory (gradient_two_false). |
| C60 | The predictor equations are the weak form of the system and polynomial solutions satisfy them exactly | proved | exact integration (C26) of the weak form, uniqueness of the nodal representation | Exact arithmetic. |
| C61 | Filling ghost cells never touches real material | proved | invariant over all orders of cell visits | For every run without an access outside the arrays; a cell visit is one atomic action, so the data race between neighbouring threads inside a visit is not covered. |
| C62 | Ghost cells hold interface states computed from real material | partial | invariant over all orders of cell visits | Needs that no ghost or isolated cell is its own source, which source_ne gives away from the low ends of the axes. At a low end the conversion to int rounds up and a cell may copy itself, at a high end the code reads beyond the array (source_edges). |
| C63 | Source terms conserve and dissipate | proved | derivative of conserved quantities along curves whose derivative is the source | Viscous configurations, any curve whose derivative is the source. source_heating gives the exact rate: body forces change the momentum but do no work on the energy, so a moving material cools. |
| C64 | Strain relaxation forgets the strain and nothing else | partial | limits and derivatives of the closed formulas; counter-examples with explicit states | Newtonian fluids. Elastic solids are not left alone: the solver does not look at SOLID unless POWER_LAW is set (elastic_relaxed). For intermediate times the result may be NaN (relax_nan). |
| C65 | The thermal relaxation solves the thermal source term | partial | limits and derivatives of the closed formulas; counter-examples with explicit states | Holds when the temperature is the internal energy over cv (ideal gas). False for other equations of state: the solver uses the energy over cv in place of the temperature (thermal_exact_false). |
| C66 | The source half step keeps mass, energy, volume ratio and level sets in every cell | proved | composition of the per-cell solvers over the grid loop | Viscous configurations; for every valid singular value decomposition and every run in which all cells give numbers. The level-set part needs MULTI or no reaction, since otherwise the reaction works on the first level set. |
| C67 | A start within the tolerance is returned as it is | partial | case analysis of the termination test and the line search | Holds exactly when the residual is zero or some component of the start is at least one in absolute value (stop_at_start), because the relative step tolerance is the largest double rather than infinity. Otherwise the solver moves away (within_tolerance_false). |
| C68 | A Newton step does not move to a point without a residual | partial | case analysis of the termination test and the line search | Holds if the residual at the full step has no NaN. False otherwise: the full step is then taken at once (nan_step). |
| C69 | The linear solver never makes the residual worse | proved | Krylov subspace as a span; each pass minimises the residual over it; Gram-Schmidt invariants of the Arnoldi loop | Exact arithmetic, no preconditioner (psolve is the identity in the code). Eigen's QR and least-squares solvers enter through their contracts, which are shown to be satisfiable (isQR_exists, isLsq_exists). |
| C70 | Small regular systems are solved to the tolerance | proved | Krylov subspace as a span; each pass minimises the residual over it; Gram-Schmidt invariants of the Arnoldi loop | As C69, without vectors kept from earlier calls. The exception for the breakdown threshold is stated explicitly (Breakdown) and does not arise for a zero threshold (no_breakdown). |
| C71 | Corrections at an interface are outgoing waves | proved | columns of the correction matrix are eigenvectors to eigenvalues of one sign (quadratic eigenproblem of the acoustic tensor) | Viscous configurations; star_outgoing without heat conduction, outgoing for any configuration whose acoustic tensor is diagonalisable with positive eigenvalues. |
| C72 | The equations are hyperbolic | partial | spectral theorem for the symmetrised tensor, explicit eigenvector basis; a complex pair of eigenvalues as counterexample with heat conduction | Symmetry and hyperbolicity without heat conduction along the first axis, for states with a positive acoustic tensor. With heat conduction the claim is false if the shear modulus depends on the density: heat_false gives a drawn material with positive temperature and positive definite acoustic tensor whose eigenvectors with real eigenvalues do not span the state space. It holds (hyperbolic_heat) if adiabatic compression heats the material and the isothermal acoustic tensor is positive definite, for states whose shear stress does not enter the pressure; rise_eq identifies the first condition with the temperature being above its reference curve. Along the other axes the code's tensor is wrong, see C45. |
| C73 | The interface equations always have a solution | proved | positivity of the interface matrices, hence invertibility | Viscous configurations without heat conduction, whenever the constraints can be formed (Defined), which unit_defined gives for undistorted states. |
| C74 | A converged interface state meets the interface conditions in the axes of the grid | proved | invariant of the star loop and rotation back (C43) | Viscous configurations, real arithmetic. The mass fraction is kept as long as the density does not vanish on the way. |
| C75 | The preconditioned linear solver never makes things worse | proved | as C69, in the preconditioned residual; correction back through the preconditioner | Exact arithmetic, injective preconditioners, at most outer_k vectors given; exception of the breakdown threshold as in C70. A singular preconditioner that annihilates the residual makes the code divide zero by zero. |
| C76 | The implicit solver of ordinary differential equations is stable for steps of any length | proved | summation by parts for the time basis with exact quadrature; dissipativity of the right-hand side tested with the solution | Exact arithmetic for the equations; the Newton run with NaN and infinities. Existence of a solution is proved for linear decay (linear_root). |
| C77 | The implicit solver of ordinary differential equations is exact for low-degree solutions | proved | summation by parts for the time basis with exact quadrature; dissipativity of the right-hand side tested with the solution | Exact arithmetic. The first part is about the equations; the Newton solver reaches their solution only up to its tolerance. |
| C78 | A decaying quantity decays | partial | exact solution of the discrete equations for linear decay | False of the code. With the default two nodes the value changes sign exactly for steps longer than three decay times (sign_two, sign_false), and a quantity of size at least one does not move at all in steps over which its change is below the Newton tolerance (stall). |
| C79 | eigen returns a complete set of right eigenvectors | partial | as C71 for the waves; direct product for the contacts; determinant by blocks | Waves: any configuration with distortion. Contacts and completeness: without heat conduction where the shear speed is the one at the reference density. Otherwise false: the function uses b02 in place of c_s^2, so the contact columns for density and pressure are wrong (contact_pressure_iff, contact_false), and with heat conduction six columns stay zero (eigen_thermal_singular). Only d = 0, the only value the library passes. |
| C80 | The phases of a mixture are in equilibrium | partial | the stopping contract of the Newton solver (C54) unfolded for the residual of the mixture | Real equations of state, Newton run with NaN and infinities. Positivity of a phase density is proved only for equations of state that take the density to a fractional power, which makes negative densities NaN; with integer exponents the equations have solutions of negative density (negative_root). Whether the Newton solver meets its tolerance is a hypothesis, met for instance by same_material. |
| C81 | dEdρ and dEdp of a mixture are the derivatives of the energy of the mixture | partial | chain rule along a path, elimination of the phase densities through the derivatives of volume and temperature balance | False in general: dEdp leaves out the change of the phase densities with pressure. mixture_rate gives the exact missing term, which vanishes for two ideal gases (missing_ideal). Reference temperatures zero. |
| C82 | A mixture of two stiffened gases has exactly one equilibrium | proved | elimination to a quadratic in the pressure; exactly one root beyond both poles by a sum of squares | Gases with positive heat capacity, adiabatic index above one and reference temperature zero, any reference pressure. |
| C83 | A shortened Newton step goes forward, is shorter than the full step and reduces the residual | proved | invariant of the search: trial steps are real and in (0, 1); derivative of the cubic | Residuals that are real at real points and NaN somewhere at a point of NaNs; the search itself runs with NaN and infinities. |
| C84 | Each linear solve is asked for a real reduction of the residual | proved | bounds on the forcing term carried through the loop | Stated as independence of the run from how the linear solver answers any other call. |
| C85 | The Newton-Krylov solver makes progress on linear equations | proved | the minimal-residual property of the Krylov solver (C69, C70), the accepted step (C83) and the tolerance asked for (C84) | Exact arithmetic for the Krylov iteration, NaN and infinities in the Newton loop and the line search. Householder QR and the triangular least-squares solve by their specification, instances of which exist (isQR_exists, isLsq_exists). |
| C86 | Strain starts to relax at the rate of the source term | partial | singular values of the stress, polynomial identities between invariants, derivative of the closed formula | relax_rate proves it for Newtonian fluids, power-law fluids and power-law solids up to the ratio of the shear moduli that solver and source term use, which factor_one_iff shows to be one exactly for solids, for constant shear moduli and at the reference density; the stretches are distinct and on the side where relaxing over no time is the identity (C51), solids are below the cap on the stress. False for Bingham fluids below their yield stress and for elastic solids, which the analytic solver relaxes like a Newtonian fluid (bingham_relaxed, elastic_relaxed). |
| C87 | Relaxation of power-law materials follows the decay of the stress | proved | the logarithm solves the equation with exponentially decaying rate; integrals by antiderivatives | Real arithmetic, for positive equivalent stress. |
| C88 | Every field the simulation hands on is well formed | proved | contracts of the functions at the end of a pass (C33, C34, C46-C49) composed, then induction on the passes | Viscous configurations. The part on volume is for cells of positive density whose distortion is regular; a field stored because it contains a NaN is excepted. What the steppers, the interface fill and the boundaries hand to make_u is arbitrary. With LSET = 0 the code copies the only grid instead of calling make_u, which is the same for one material that is not vacuum. |
| C89 | Periodic runs conserve mass, momentum and energy | partial | periodic padding gives equal reconstructions at opposite ends, so the face terms cancel (C20, C21, C14); then the end of a pass (C88) and induction on the passes | Viscous configurations with LSET = 0, real arithmetic, densities positive and shear energy non-negative for the part on energy growth. Proved for lines, for both steppers, and for planes without NO_CORNERS. False for planes with NO_CORNERS, the shipped setting: reconstructions of one face at opposite edges differ, and corners_leak shows a field whose total momentum the split stepper changes for every step length. |
| C90 | The half step of the split scheme follows the equations without sources | proved | the derivative tables are exact on polynomials (C27), chain rule for the scaling of the cell | Real arithmetic. The statements on means and on linear profiles are for one dimension. gpr_bdot_smul shows that the nonconservative part of the GPR equations is linear, as the theorems on the rate need. |
| C91 | A uniform unstrained body stays as it is for the whole run | proved | every stage maps the uniform field to itself: reconstruction (C20), prediction (C30, C67), half step (C90), sources (C63, C64), finite volumes (C16), boundaries (C10), end of a pass (C88); then induction on the passes | Viscous configurations with LSET = 0, one material that is not vacuum, real arithmetic, ROTATE_DISTORTION off. run_rest takes the predictor and the half step as given to be steady at the state; code_steady shows this of the modelled Picard, Newton and half-step code. Symmetric walls are covered for diagonal distortions. |
| C92 | A plane run whose data do not vary along y is a line run | partial | every stage maps columns to columns: padding (C10), reconstruction (C20), Picard iteration (C30), half step (C90), finite volumes with opposite faces along y cancelling (C16), end of a pass (C88); then two runs side by side by induction on the passes | Proved without NO_CORNERS for viscous configurations, real arithmetic, Picard iteration that comes to an end within DG_IT iterations in the cells of the line (unsplit) or any data (split); timestep_columns is for one material. False with NO_CORNERS, the shipped setting: columns_corners_false shows a plane field without variation along y that one call of the split stepper turns into something that is not made of columns of what any stepper makes of the line. With N = 1 the option has no effect (columns_first, C106). Missing: Newton-Krylov prediction (STIFF), and several materials. |
| C93 | Shifted data on a periodic grid give the shifted run | partial | every stage commutes with the shift: periodic padding (C10), reconstruction, prediction, finite volumes; then two runs side by side by induction on the passes, as in C92 | Lines (run_shift1), and planes without NO_CORNERS (run_shift2); one material, viscous configurations, real arithmetic; with the unsplit stepper the predictor has to come to an end in every cell. With the shipped NO_CORNERS = true it is false on planes: shift_corners_false gives two planes of any number of rows from six on, shifts of one another, whose results after one split step are not (the reconstruction of a cell depends on its place in the chunk of rows, C14, C89). With N = 1 the option has no effect (shift_first, C106). |
| C94 | Relaxation does not depend on the frame or on the decomposition Eigen picks | partial | singular vectors of two decompositions differ by an orthogonal matrix that commutes with the stretches; the counterexample by bounds on the trigonometric root, uniform near equal stretches | Proved for states whose stretches are distinct, or so close that the solver leaves them alone. False where two stretches coincide: relax_choice_iff says exactly when the choice does not matter, relax_choice_false gives a Newtonian fluid for which exchanging two singular vectors of equal stretch changes the result, and relax_jump shows that then no choice makes the result continuous. Real arithmetic. |
| C95 | The mirror image of the data gives the mirror image of the run | partial | the nodes of the quadrature are symmetric, so every table is its own reversal; equations, source terms, interface function and wave speeds commute with the signs; every stage commutes with the mirror; then two runs side by side by induction on the passes, as in C92 | One material, viscous configurations, real arithmetic, STIFF = 0. The interface function is assumed to have no preferred side, which rusanov_mirrored shows of the Rusanov flux without MULTI, and env_mirror_eig of the Roe and Osher fluxes at the interfaces where eigenvectors span (FacesLine); with MULTI it is false (C18, interface_multi_false). With the unsplit stepper the predictor has to come to an end in every cell; with the split stepper Eigen's singular vectors have to be mirrored with the distortion up to their signs, or not to matter (C94); mirror_svd_exists shows that such decompositions exist. With ROTATE_DISTORTION they have to be mirrored on both sides. |
| C96 | The fluxes of Roe and Osher do not depend on the eigenvectors Eigen picks | proved | the dissipation is a function of the matrix, which Lagrange interpolation on the spectrum writes as a polynomial in the matrix; hence it does not depend on the eigenvectors, and similarity by the signs of the mirror carries over; spanning from the hyperbolicity of C72 | Real arithmetic; Eigen is assumed to return eigenvectors and to solve the linear system wherever eigenvectors span (EigOk; such a solver exists, eigOk_exists). For D_ROE on more than one node that the eigenvectors of the averaged matrix span is a hypothesis. |
| C97 | The states between the two sides of an interface lie between them | proved | integrate the squared interpolation polynomials times x and 1 - x exactly, by the quadrature of C26 | Exact arithmetic; the nodes are the eigenvalues of the companion matrix of C26. |
| C98 | Similar problems have similar solutions | proved | every stage is invariant: source terms scale by 1/k, derivatives by 1/k, steps by k, so predictors, half steps, fluxes and finite volumes are equal as functions; the loop of iterator commutes with the stretching of time, by induction on the passes | One material, real arithmetic, viscous configurations for the predictors (zoom_code). E.zoom is again what the code computes for the slower material: zoom_ok, zoom_sourced, zoom_code, zoom_interface. The mixture solver of solve_multi does not see the parameters that change (hmix). |
| C99 | Galilean invariance: a moving observer sees the same physics | proved | the change of observer is linear on states; flux and Bdot change by the same drift term with opposite signs; chain rule; the matrices of the interface solver do not contain the velocity | Real arithmetic, configurations with distortion. About the equations, the source half step and the interface states; the finite volume scheme itself depends on the observer, as its numerical diffusion depends on max_abs_eigs. contact_solves gives a solution that is not constant, for which moving_solves applies. |
| C100 | First-order runs never empty a cell | partial | the signal speed bounds the speed of the matter, so both parts of the Rusanov mass flux have a sign; with one node every table is trivial, so traces, half step and predictor keep the density of the cell; the new density is then a sum of non-negative parts; induction on the passes | One material, viscous configurations, Rusanov flux, STIFF = 0, real arithmetic. Proved for N = 1, with and without NO_CORNERS; the shipped N = 2 is covered by second_dense (C102: lines, split stepper, no half step) and by line_loss and plane_loss, which take positive densities at the faces as given. With the unsplit stepper the predictor has to come to an end in every cell, with the split stepper the source terms have to give numbers (LineRuns, PlaneRuns). That the states after prediction or source terms meet the condition on the step is a hypothesis; timestep checks it for the cells before. |
| C101 | In first order level sets stay within their range; mass fractions do not | partial | with one node a step replaces a level set by itself plus multiples of its differences to the neighbours; the signal speed bounds the speed of the matter, so under the condition on the step the multiples are weights of a mean; induction on the passes; for mass fractions the step is computed in closed form | One material, viscous configurations, N = 1, Rusanov flux, any NO_CORNERS, real arithmetic. With the shipped N = 2 the bound is false: level_overshoot (C102). That the states after prediction or source terms meet the condition on the step is a hypothesis. For mass fractions the bound is false: fraction_negative (lines, no reaction, no body force), for all three interface functions (right_only). |
| C102 | Second-order reconstruction keeps densities positive where neighbours differ by less than a factor of three, and makes level sets overshoot | proved | with two nodes the reconstruction is a line whose slope is a weighted mean of the differences to the neighbours (C20); the densities at the faces add up to twice the average, so what leaves through the faces is less than what is there; the level set at the foot of a slope is computed in closed form | One material, viscous configurations, real arithmetic. The source terms have to give numbers (SecondRuns), and the condition on the step is asked of the reconstructed states. The half step and the unsplit stepper are not covered by second_dense. |
| C103 | Which cells an interface state is computed from | proved | invariants of the sweeps over the cells; the gradient of an affine field is exact, so probes and sources are computed in closed form; induction on the layers | phi is given as a distance; that the fast marching method returns it is proved for one surface on a line (C111). On planes the surface is perpendicular to an axis with the material on its low side; its mirror image is proved on lines only. The state behind the surface is that of cell k + 1 if the surface lies in the cell k of the first positive value and of cell k itself if it lies in the cell before. |
| C104 | Away from interfaces a pass with several materials is a pass with one | proved | every stage of a masked step is a function of the stencil; interior cells of a material are copied to its grid unchanged; make_u takes the level sets from the only material selected there | One pass, from the field after renormalize_levelsets; viscous configurations, real arithmetic. On planes NO_CORNERS is off (with the shipped setting and N = 2 the reconstruction of a cell depends on its place in a chunk of rows, C14, C93; with N = 1 the option has no effect, C106) and the cells the stencil reaches must not be isolated, because fill_ghost_cells treats isolated cells as ghost cells. |
| C105 | In first order several materials keep level sets in range and cells filled | proved | C100 and C101 cell by cell on the grid of each material; make_u takes means of the level sets, and the other variables from the material of the cell | One pass, from the field after renormalize_levelsets (which replaces level sets by distances, so there is no such bound for whole runs). Viscous configurations, real arithmetic, any NO_CORNERS. The condition on the step is on the states after prediction or source terms on the grid of each material (Clear, Clear2). |
| C106 | With N = 1 the option NO_CORNERS has no effect | proved | with one node the kernels of the finite volume sums never read a corner of the reconstruction, so the lists of updates are equal whatever the corners hold | Step by step the updates of a step are the same lists (ader2_corners, split2_corners); so are the steps with masks (masked2_corners) and the runs (corners_follow). Whether uninitialised memory is read is part of the model: the places left out hold arbitrary values. |
| C107 | The two axes of a plane are not treated alike | proved | source terms and predictor leave unstretched states alone, so with one node a step is a sum over the four faces in closed form; the speeds along the two axes of an unstretched state are compared by the characteristic polynomials of the acoustic tensors | One material without heat conduction, reactions or body forces, viscous configurations, N = 1, Rusanov flux, STIFF = 0, real arithmetic. The omission in max_abs_eigs is part of C45 (second_axis_false). |
| C108 | A pass carries information at most N cells, except that resetting the distortion acts everywhere at once | proved | the updates of a cell are functions of the cells its stencil reads (as for C104); the end of a pass is shown to work cell by cell apart from the decision to reset; induction over passes | One material, viscous configurations, real arithmetic. For the unsplit stepper the predictor must come to an end in every cell of the first run (SettlesAt). The step lengths are given, because timestep takes the maximum of the speeds over the grid. On planes NO_CORNERS is off (with N = 1 the option has no effect, C106). |
| C109 | In first order results do not depend on the units of mass, length and temperature, apart from three built-in constants | proved | every function is shown to be homogeneous, component by component, for a three-parameter group of scalings; the closed form of a split step (C110) carries this to steps, and the end of a pass and timestep follow cell by cell; for the three constants the two sides are computed and compared | One material, viscous configurations, real arithmetic. The mixture solver is assumed to return pressure and density of the mixture in the other units (Fit.mix). Reactions without MULTI are excluded, because the code then divides a level set by a density. ader_stepper is not covered, as the tolerances of its solvers are absolute numbers. |
| C110 | What a split step of first order computes | proved | with one node reconstruction and half step are constant in the cell and the quadrature weights are one; masked cells have their whole stencil inside the extended mask | One material on the grid stepped, viscous configurations, real arithmetic. |
| C111 | Distances are exact on a line, and neighbouring cells differ by at most their spacing | partial | the log of accepted cells gives the eikonal equation over the neighbours accepted before and the order of acceptance; on a line the equation is that of one neighbour, and induction along the line in both directions gives the least path | Fields with an interface and without values in (0, eps]; real arithmetic. (Without an interface all distances are zero, and values in (0, eps] are treated as on the interface, C04-C08.) |
| C112 | A contact between two bodies is carried along exactly with their velocity | proved | unstretched states of equal velocity and pressure have no source terms and equal tractions, so star states are the states themselves; the closed form of a split step (C110) then leaves everything but the level set, which is carried along with the velocity except at the ends of the line, where fast marching restores it (C111); make_u follows the new sign; induction over passes | Viscous configurations with one level set, without heat conduction and mixtures, real arithmetic, ROTATE_DISTORTION off, no body force or reaction, both b02 positive. After every pass the surface is at least two cells from the ends and its distance from the next cell centre ahead exceeds eps (hypothesis on the positions x0 + v t of the run). run_contact takes step lengths with dt max_abs_eigs <= dx on both sides; run_contact_timed takes those of timestep with CFL <= 1. At the two ends of the line the level set changes by up to dt max_abs_eigs in a pass and is restored by the next renormalize_levelsets. |
| C113 | On a plane the mirror image of a sheared body takes other time steps | proved | the acoustic tensor of a sheared state is computed in closed form; its mirror image has the odd parts of the entries with the other sign, and weights of a Perron vector bound its spectral radius strictly by that of the matrix with positive entries; timestep of an even field is K over the sum of speeds over cell sizes | Viscous configurations without heat conduction, one material without mixture or reaction, real arithmetic, A = [[1,s,0],[0,1,0],[0,0,1]] with s > 0. The misplaced column of Xi1 and Xi2 is part of C45. |
| C114 | A front parallel to an axis of a plane gets the exact distances of the line | proved | induction along the log of accepted cells: the discrete eikonal equation over the neighbours accepted before has the distance of the line as its larger root whether or not neighbours along the front are among them, and a cell that lacks its neighbour towards the front cannot be the nearest one left | Real arithmetic. What happens without an interface or with values in (0, eps] is C04-C08. |
| C115 | Distances depend on the level set and the grid only, and share their symmetries | proved | from the run of the heap: neighbours accepted later are not nearer and so do not enter the upwind sum; two solutions of the upwind equations are compared at the cell where the smaller one is least among those where they differ; symmetries of the grid carry solutions to solutions | Real arithmetic. distance_alike with alike_self and factor 1 is the independence of memory, fuel and order; with alike_line and alike_plane the mirror images, with alike_swap the exchange of axes. What happens without an interface or with values in (0, eps] is C04-C08. |
| C116 | Distances on planes are not too small, and along straight fronts too large by a factor of at most the square root of two | proved | comparison principle for the upwind equations (C115): the cell with the least distance among those below a function with supporting planes of slope k would have an upwind sum below one; the upper bound by induction along a row from C111 | Real arithmetic. Convexity is used in the form that the level set of a cell has a supporting plane of slope at most k below the values of its neighbours (Support). |
| C117 | Renormalising a level set again keeps straight and diagonal fronts, but moves oblique ones and thins layers of one cell | proved | the two cells next to a change of sign get distances that add up to the spacing, so interpolation between them reproduces them; the rest is uniqueness of the upwind equations (C115); for the drift, a recursion d -> h d / (d + h/4) solved in closed form | Real arithmetic; fields with an interface and without values in (0, eps], before and after the first call. |
| C118 | A contact across a plane is carried along exactly, and materials slide along it freely | proved | as C112; the test of left_star_state compares only the components across the surface when RIEMANN_STICK is off (slides_rot), so states that slide are their own star states; the grids of the materials and their masks are those of C103 row by row, the distances those of C114, and in the closed form of a split step (C110) the faces along the second axis separate equal states, so that their fluxes cancel | Viscous configurations with one level set, without heat conduction and mixtures, real arithmetic, ROTATE_DISTORTION off, no body force or reaction, both b02 positive; surfaces orthogonal to the first axis. After every pass the surface is at least two cells from the ends and its distance from the next cell centres ahead exceeds eps (hypothesis on the positions x0 + v t of the run). In the first and last row of the plane the level set changes by up to dt max_abs_eigs in a pass and is restored by the next renormalize_levelsets. |
| C119 | Bodies that slide along each other keep the shear stress they had at their surface | proved | the rotation to the axes of the surface has the normal as its first row, so the components compared are those across the surface (rotated_first); the stress of simple shear is computed in closed form, and its normal components, its energy and so its pressure are even in the shear | Viscous configurations without heat conduction, real arithmetic. The property describes what the code does; that a sliding surface carries no shear traction is false of it. |
| C120 | It does not matter in which order the materials are numbered | proved | every function below left_star_state is shown to commute with negating and reversing the level sets, the loop by induction; the layers copy whatever the cells hold; comparisons of get_material_index with mat agree because no level set is zero; two maxima of the same signed level sets are equal | Real arithmetic, configurations with distortion. fill_reversed starts from the field after renormalize_levelsets; whole_reversed includes that call, for cells of equal sides, level sets that all change sign, and no values in [-eps, eps] (distance treats values in (0, eps] and their negatives differently, C04-C08). In material_indicator and after it distance and finite_difference enter as arbitrary functions. NaN states are the outcome none of the model. |
| C121 | Memory that was not written is not read | proved | congruence of the loops of the update: every read is guarded by the mask entry of the cell that is read; the predictor is written in those cells | The predictor, the fluxes and the sources enter as arbitrary functions. That the condition on the predictor can fail is part of C30. |

## 5. Where the code disagrees with what a user would expect

"(proved)" means a theorem of the model shows it; the name follows.  The other remarks come from reading the code and are not
formalised.

**Heap and marching**
* `push` compares the number of live entries with the capacity but stores at the index of all pushes so far: it writes beyond its arrays once there have been more pushes than the capacity (proved, `heap_push_overrun_reachable`).  The marcher never does this (`distance_terminates`).
* `set` on a handle that was popped uses a stale back-pointer.  `test()` does not look at the last element.
* Values in `(0, eps]` take the wrong root of the quadratic and end with the wrong sign (proved, `distance_sign_violated`).
* A field without interface yields error 2 and a field of zeros, so the material index of all cells changes (proved, `distance_no_interface`, `renormalize_changes_material`).
* With unequal spacings `distance` counts a neighbour that is farther from the surface than the cell itself, so distances come out too small, even below the spacing to a neighbour on the surface (proved, `distance_upwind_false`).
* The distances of cells next to the surface are those along the axes, not those from the surface: along a diagonal front they are too large by a factor of the square root of two, however fine the grid (proved, `distance_diagonal_false`).
* `renormalize_levelsets` moves a front that is oblique to the axes with every call, although nothing flows (proved for any number of calls, `distance_drift_false`): the two cells next to a zero take their distances along different axes.  For the same reason a layer one cell thick gets thinner with every call until it is symmetric about the centre of its cell (proved, `distance_thin_false`).

**Grid and boundaries**
* Periodic boundaries on an axis with fewer than `N` cells read outside the array (proved, `boundaries_narrow_ub`).  An unknown boundary code leaves the ghost cells unset.
* With `DESTRESS` wall ghosts do not keep `|det A|` (proved, `destress_wall_false`); `pow` of a negative determinant is NaN.
* With `VISCOUS` off the symmetric walls treat level-set components as a distortion.  With `THERMAL` the heat flux is not reflected.

**Steppers and threads**
* In two dimensions with `NO_CORNERS` (shipped) the result depends on the number of threads (proved, `ader_para2_corners_false`). With `N = 1` the option has no effect (`corners_first`).
* In two dimensions with `NO_CORNERS` (shipped) periodic grids do not conserve momentum: cells next to the edges are reconstructed with different stencils at opposite ends (proved, `corners_leak`).
* A chunk of one row divides 0 by 0 (proved through `weno_one_row_undefined`).
* The serial split stepper changes the caller's `ub` in place, the parallel one a copy.  `ithread*nx` may overflow `int`; `nx = 0` divides by zero.

**WENO, fluxes, quadrature**
* `oscillation_indicator` adds to an uninitialised matrix (proved, `oscillation_garbage`).
* `flux` with `MULTI` assigns the mass-fraction component where it should add (proved, `interface_multi_false`).
* `Bdot` with `VISCOUS` off leaves its result uninitialised (proved, `bdot_inviscid_unset`); an unknown `FLUX` leaves the interface flux uninitialised.
* `kron` of fewer than two matrices indexes `mats[-1]` (proved, `kron_short`).  `leggauss(0)`, `legder` of fewer than two and `legval` of no coefficients are index errors.  The aliasing in `leggauss` is harmless only because the nodes are symmetric.

**Predictor**
* A cell whose iteration does not converge in `DG_IT` passes is left unwritten (proved, `predictor_unwritten`).
* The stiff initial guess in two dimensions calls the one-dimensional guess with a wrong shape.

**Iterator**
* After a NaN the iterator writes snapshot `pushCount + 1`, beyond the list in the last percent (proved, `overrun_witness`).
* `std::max` ignores a NaN speed, so a NaN cell does not stop the time step (proved, `timestep_nan`).
* With at least as many level sets as materials `make_u` indexes beyond the parameter list (proved, `make_u_overrun`).
* In two dimensions the time step can exceed the CFL bound (proved, `timestep_second_axis_false`).
* A step that crosses several percent marks fills one slot; the others are filled late or stay empty.

**Equations of state and Jacobians**
* `Cvec` adds the reaction energy under `MULTI` even for inert materials, and the shear energy with `VISCOUS` off (proved, `cvec_pvec_inert`, `cvec_pvec_inviscid`); mixtures do not update `E_1` (proved, `cvec_pvec_mixture_iff`).
* `dTdρ` omits `Tref·dφ` (proved, `dTdrho_correct_iff`), so the Jacobian is wrong with `THERMAL` and `Tref ≠ 0` (proved, `dFdP_thermal_false`).
* `dEdρ` reads the distortion with `VISCOUS` off (proved, `dPdQ_inviscid_false`).  `dsigmadρ` divides by the shear speed.
* `REACTION > -1` without `MULTI` reads a level set as mass fraction.

**Waves and eigenvectors**
* `Xi1` and `Xi2` put pressure and density terms in columns 0 and 1 whatever the direction, so wave speeds along y are wrong (proved, `second_axis_false`).
* `eigen` uses `b02` for `c_s²`: the density and pressure contact columns are not eigenvectors otherwise (proved, `contact_pressure_iff`, `contact_false`).  With `THERMAL` six columns are zero (proved, `eigen_thermal_singular`).

**Distortion utilities**
* `contorted` looks at vacuum cells, `reset_distortion` skips them (proved, `reset_vacuum_false`): a vacuum cell can make the iterator reset the material cells in every step.
* `rotate_distortion` may flip the sign of the determinant (proved, `rotate_density_false`).  `renorm_distortion` leaves the energy as it is, so pressure changes.
* With `VISCOUS` off these functions and `rotate_tensors` write into level sets and neighbouring cells (proved, `renorm_inviscid_false`, `rotate_inviscid_false`).

**Ghost cells**
* At the low edge a ghost may copy itself, at the high edge it reads outside the array (proved, `source_edges`).
* With zero gradient the normal is NaN and the conversion to `int` undefined.  In one dimension `boundary_inds` reads `n(1)`.
* Threads of `fill_boundary_inner` race: two cells may write one target.
* A layer of material of one row next to the low edge of the second axis makes `fill_boundary_inner` read before the start of the array in the first column (proved, `thin_layer_outside`), and the last cell of the previous column in the others.
* With two cells along an axis `finite_difference` returns uninitialised memory (proved, `gradient_two_false`).
* With two materials and two level sets `material_indicator` ignores the second level set (proved, `indicator_two_false`).

**Relaxation**
* Over zero time strain relaxation changes `A` for a large class of states: `atan` where `atan2` is needed (proved exactly, `relax_zero_iff`, `relax_zero_false`).
* Where two stretches coincide the relaxed `A` depends on the singular vectors Eigen happens to return, and jumps under arbitrarily small changes of `A` (proved, `relax_choice_false`, `relax_jump`).
* Strongly strained cells give NaN (proved, `relax_nan`).  Elastic solids, and Bingham fluids below their yield stress, are relaxed like Newtonian fluids unless `POWER_LAW` is set (proved, `elastic_relaxed`, `bingham_relaxed`).
* The analytic solver relaxes fluids with the shear modulus `b02`, the source term with `b02 (ρ/ρ0)^β` (proved, `relax_rate`, `factor_one_iff`).
* A NaN reaction rate burns everything (proved, `nan_burns`).
* Body forces do no work (proved, `source_heating`).
* The thermal solver uses `e/cv` for the temperature (proved, `thermal_exact_false`).

**Nonlinear and linear solvers**
* `Vec dx` declared inside the loop hides the outer one, so the step tolerance has no effect (proved, `step_tolerance_false`).
* `INF` is the largest double, so with the default tolerances the solver stops early only if some component is at least one in size or the residual is zero (proved, `within_tolerance_false`).
* The line search takes the full step if the residual there is NaN (proved, `nan_step`).
* In the second and later rounds of `scalar_search_armijo` the cubic still takes its first value to belong to step 1, although it belongs to the previous trial step (`alpha0` is never updated), and its second value belongs to the trial before it was halved; the reset conditions then always halve the step.
* A singular preconditioner that annihilates the residual divides 0 by 0 in `lgmres_wrapper`.
* `stiff_ode_solve` (not called by shipped code; the call in `relaxation/numerical.cpp` is commented out) changes the sign of decaying quantities for long steps (proved, `sign_two`) and stalls for slow decay (proved, `stall`).

**Material interfaces**
* `slip_bcs` with `THERMAL` writes a row of `YL` where `YR` is meant (proved, `slip_thermal_false`).
* With the shipped `RIEMANN_STICK = false` the test for convergence does not look at the shear traction, so that sheared bodies in balance across their surface keep shear tractions on it, even opposite ones on the two sides (proved, `slip_shear_false`).
* Materials with `b02 = 0` never get an interface state: the left state is returned after ten NaN steps (proved, `left_star_inviscid`).
* With `THERMAL` and `β ≠ 0` the equations lose hyperbolicity for drawn materials, although the temperature and the acoustic tensor are positive: the temperature is evaluated with a pressure that contains a shear contribution, so that compression may cool (proved, `heat_false`).
* The test for NaN precedes the rotation back, which can create NaN from infinities.

**Reconstruction**
* With the shipped `N = 2` positive densities may be reconstructed as negative ones next to jumps by more than a factor of three (proved, `weno1_negative`); `max_abs_eigs` is NaN there.
* With `N = 2` level sets overshoot in every step that carries a slope onto a plateau (proved, `level_overshoot`).
* One contorted cell makes `reset_distortion` replace the distortion of every cell of the grid, so that it acts on all of them at once however far away (proved, `reset_far`).
* Data that vary along `y` are not treated like data that vary along `x`: the Rusanov flux uses `max_abs_eigs`, which leaves out the sound speed along the second axis (proved, `axes_false`).
* On planes the mirror image of a sheared body takes other time steps, because of the same columns (proved, `timestep_mirror_false`).

**Mixtures**
* With `MULTI`, mass fractions look downstream at half the velocity: a cell with nothing burnt upstream of one with something burnt becomes negative in a step of any length, and only the clip at the end of the pass hides it (proved, `fraction_negative`, `fraction_clipped`; the cause is the assignment in `flux`, C40).
* Without `MULTI`, the source of a reactive material is written into the first level set (`odeNumerical` at index `mV`), so the bound on level sets needs `MULTI` or no reaction.
* `dEdp` of a mixture omits the change of the phase densities with pressure (proved, `dEdp_false`, exact condition `dEdp_correct_iff`).
* Pure phases are cut off at zero pressure, so that stiffened gases under tension get the wrong energy (proved, `pure_phase`).
* With integer exponents in the equation of state (for instance `γ = 2`, or the shock equation of state) the equations of `solve_multi` have solutions with a negative phase density, which nothing rejects (proved, `negative_root`).

**Hidden units**
* `theta1inv` limits the stress of power-law solids to `1e8` in whatever units the user has chosen (proved, `units_cap_false`); the reconstruction adds a fixed `eps` to squares of data (proved, `weno1_units_false`); a `MOVING` wall has speed 1 (proved, `moving_units_false`).
* Without `MULTI` a material that reacts takes a level set divided by the density as its mass fraction, which is not even dimensionally consistent.

**Source text**
* `solvers/fv/fluxes.cpp` defines `D_RUS` twice (lines 66-75 and 77-86, the same text), which a compiler rejects; the model has it once.

## 6. Axioms

Result of `#print axioms` for every theorem named in `MANIFEST.json`.

Theorems depending on `propext` (1):

* `Dg`: `kron_short`

Theorems depending on `Quot.sound`, `propext` (10):

* `Dg`: `iterate_unwritten`, `iterate_written`
* `Fill`: `layers_defined`
* `Grid`: `boundaries_narrow_ub`
* `Step`: `ader1_unread`, `ader2_unread`, `fv1_reads`, `fv2_reads`
* `Weno`: `active_gap_one`, `active_zero`

Theorems depending on `Classical.choice`, `Quot.sound`, `propext` (567):

* `Basis`: `basis_cardinal`, `derivative_values_exact`, `end_values_exact`, `tables_2d_exact`
* `Dg`: `between`, `code_nodes_inside`, `constant_solves1`, `constant_solves2`, `der_integral`, `end_products`, `fixed_point_iff_zero1`, `fixed_point_iff_zero2`, `kron_entry`, `mat_isUnit`, `mixed_surj`, `nodes_inside`, `obj1_exact_solution`, `obj1_strong`, `obj2_exact_solution`, `obj2_strong`, `predictor1_accepts`, `predictor_tolerance`, `predictor_unwritten`, `summation_by_parts`, `tab_exists`, `tab_sym`
* `Eig`: `characteristic_bound`, `longitudinal_wave`, `second_axis_false`, `system_primitive`
* `Fill`: `boundary_fallback`, `distance_index_partial`, `find1_spec`, `find2_spec`, `ghost_keeps`, `ghost_line_left`, `ghost_line_right`, `ghost_mask`, `ghost_plane`, `ghost_reversed`, `ghost_states`, `gradient1`, `gradient2`, `gradient_two_false`, `indicator_index`, `indicator_neg`, `indicator_reversed`, `indicator_two_false`, `indicator_unique`, `layers_follow`, `layers_keep`, `layers_spec`, `normal_unit`, `reversed_index`, `source_edges`, `source_ne`, `thin_layer_outside`, `walk_outside`
* `Fv`: `fv1_cell`, `fv1_conservative`, `fv1_masked`, `fv1_total`, `fv2_cell`, `fv2_conservative`, `fv2_masked`
* `Grid`: `boundaries_1d`, `boundaries_2d`, `boundaries_interior`, `boundaries_periodic`, `destress_wall_false`, `extend_mask_1d`, `extend_mask_2d`, `wall_preserves`, `wall_pressure`, `wall_velocity`
* `Heap`: `heap_in_bounds_partial`, `heap_push_overrun`, `heap_push_overrun_reachable`, `heap_refines_queue`, `heap_set_then_pop`, `heap_sorts`
* `Iter`: `anisotropy_ge`, `contorted_iff`, `isotropic_not_contorted`, `limit_concentration_off`, `limit_concentration_spec`, `make_u_defined`, `make_u_overrun`, `make_u_spec`, `no_overrun_partial`, `overrun_iff`, `overrun_witness`, `reach_time`, `renorm_distortion_spec`, `renorm_inviscid_false`, `reset_distortion_spec`, `reset_uncontorted_partial`, `reset_vacuum_false`, `rotate_density_false`, `rotate_distortion_spec`, `run_ends`, `run_length`, `snapshots`, `timestep_nan`, `timestep_second_axis_false`, `timestep_spec`, `timestep_timely`
* `Krylov`: `isLsq_exists`, `isQR_exists`, `jacVec_affine`, `kept`, `lgmres_decreases`, `newton_affine`, `no_breakdown`, `pass_descent`, `pass_optimal`, `pass_small`, `precond_decreases`, `wrapper_decreases`, `wrapper_small`
* `Legendre`: `legder_correct`, `legder_hasDerivAt`, `leggauss_exact`, `leggauss_zero`, `legval_correct`, `scaled_gauss_exact`
* `March`: `alike_line`, `alike_plane`, `alike_swap`, `diagonal_even`, `distance_again`, `distance_alike`, `distance_convex`, `distance_diagonal_false`, `distance_disc`, `distance_drift_false`, `distance_eikonal_partial`, `distance_front`, `distance_front_first`, `distance_front_second`, `distance_interface_values`, `distance_line_partial`, `distance_mirror`, `distance_neighbour_partial`, `distance_no_interface`, `distance_onto`, `distance_reaches_all_partial`, `distance_scale`, `distance_sign_partial`, `distance_sign_violated`, `distance_straight`, `distance_swap`, `distance_terminates`, `distance_terminates_grid`, `distance_thin_false`, `distance_upwind`, `distance_upwind_false`, `drift_exists`, `line_even`, `onto_first`, `onto_second`, `renormalize_changes_material`, `renormalize_keeps_material_partial`, `thin_exists`, `upwind_above`, `upwind_unique`
* `Mix`: `dEdp_correct_iff`, `dEdp_false`, `dalton`, `energy_floor`, `missing_ideal`, `mixture`, `mixture_rate`, `negative_root`, `obj_zero_iff`, `one_equilibrium`, `pure_phase`, `same_material`
* `Newton`: `ader1_equilibrium`, `ader2_equilibrium`, `early_stop`, `early_stop_nan`, `forcing`, `lineSearch_spec`, `nan_step`, `newton_linear`, `numeric_step_partial`, `root_stays`, `step_length`, `step_tolerance_false`, `stop_at_start`, `stop_cause`, `trial_minimum`, `within_tolerance_false`, `within_tolerance_partial`
* `Poly`: `diff_hasDerivAt`, `diff_integrate`, `diff_iterate`, `divC_evaluates`, `integrate_zero`, `multiply_assoc`, `multiply_comm`, `multiply_evaluates`
* `Relax`: `bingham_relaxed`, `boost_odeCell`, `boost_rate`, `boost_source`, `cFluid_eq`, `cSolid_eq`, `const`, `converges`, `elastic_relaxed`, `expansion_burns`, `factor_one_iff`, `fluid_total`, `launcher_some`, `launcher_spec`, `linear`, `moments_ode`, `moving_solves`, `nan_burns`, `odeLauncher_cells`, `ode_keeps`, `ode_turn`, `power_time`, `react`, `reactionRate_nonneg`, `relax_choice`, `relax_choice_false`, `relax_choice_iff`, `relax_det`, `relax_jump`, `relax_limit`, `relax_nan`, `relax_rate`, `relax_turn`, `relax_zero_false`, `relax_zero_iff`, `solid_total`, `source_conserved`, `source_det`, `source_dissipates`, `source_heating`, `thermal_deriv`, `thermal_exact`, `thermal_exact_false`, `theta1inv_nonneg`, `units_cap_false`, `units_nondimTime`, `units_odeCell`, `units_reactionRate`, `units_source`, `zoom_nondimTime`, `zoom_odeCell`, `zoom_source`
* `Riemann`: `Y0_pos`, `bcs_some`, `boost_leftStar`, `boost_starStepper`, `collision`, `contact_false`, `contact_pressure_iff`, `eigen_contacts`, `eigen_regular`, `eigen_thermal_singular`, `eigen_waves`, `heat_false`, `hyperbolic`, `hyperbolic_heat`, `hyperbolic_plain`, `leftStar_reversed`, `left_star`, `left_star_free`, `left_star_idle`, `left_star_inviscid`, `left_star_keeps`, `left_star_match`, `no_longitudinal`, `outgoing`, `rise_eq`, `rotated_first`, `rotated_total`, `slab_pressure`, `slab_traction`, `slip_fixed`, `slip_idle`, `slip_shear_false`, `slip_thermal_false`, `slip_traction`, `slip_velocity_partial`, `starLoop_spec`, `star_outgoing`, `stick_fixed`, `stick_traction`, `stick_velocity`, `temperature_rate`, `tensor3_symm`, `tensor_real`, `unit_defined`, `vacuum_traction`
* `Rot`: `gpr_mirrored`, `interface_unique`, `mir_systemMatrix`, `mirror_second`, `mirror_svd_exists`, `osher_defined`, `osher_mirrored`, `roe_mirrored`, `roe_right`, `rotate_back`, `rotate_inviscid_false`, `rotated_traction`, `rotation_invariant`, `rotation_matrix_proper`, `rotation_round_trip`, `rusanov_mirrored`, `shear_speed_pos`, `spans_heat`, `spans_plain`, `streams_meet`
* `Run`: `ader2_corners`, `axes_false`, `code_steady`, `columns_corners_false`, `columns_first`, `cone2_near`, `cone_near`, `contact_cell`, `contact_cell2`, `contact_chooses`, `contact_chooses2`, `contact_exists`, `contact_exists2`, `contact_grids2`, `contact_pass`, `contact_pass2`, `contact_two`, `contact_two2`, `corners_first`, `corners_follow`, `corners_leak`, `destress_img`, `destress_mass`, `destress_units`, `distance_negated`, `env_mirror_eig`, `facesLine_rest`, `fill_reversed`, `finish_calm`, `finish_copy`, `finish_mirror`, `finish_rest`, `finish_same`, `finish_spec`, `finish_units`, `finish_zoom`, `fraction_clipped`, `fraction_negative`, `fraction_step`, `level_first2`, `level_overshoot`, `level_step`, `line_bounds`, `line_cone`, `line_dense`, `line_level`, `line_loss`, `make_u_reversed`, `masked2_corners`, `masked2_dense`, `masked2_level`, `masked2_local`, `masked_all`, `masked_dense`, `masked_level`, `masked_local`, `mirrors_open`, `mirrors_wall`, `moves2_units`, `moves_columns`, `moves_mirror`, `moves_rest`, `moves_shift1`, `moves_shift2`, `moves_units`, `moves_zoom`, `moving_units_false`, `multi2_deep`, `multi2_dense`, `multi2_level`, `multi_deep`, `multi_dense`, `multi_level`, `osher_fluxMirrored`, `pads_shift1`, `pads_shift2`, `plane_bounds`, `plane_cone`, `plane_dense`, `plane_level`, `plane_loss`, `renormalised_exists`, `renormalised_reversed`, `reset_far`, `rest_density`, `resting_runs`, `reversed_index_false`, `right_only`, `roe_fluxMirrored`, `run2_units`, `run_columns`, `run_conserves`, `run_contact`, `run_contact_plane`, `run_contact_plane_timed`, `run_contact_timed`, `run_line_dense`, `run_line_level`, `run_mirror`, `run_plane_dense`, `run_plane_level`, `run_rest`, `run_shift1`, `run_shift2`, `run_similar`, `run_sound`, `run_symmetric`, `run_units`, `runs_twin`, `rusanov_units`, `second_dense`, `shift_corners_false`, `shift_first`, `slides_rot`, `snapshot_reached`, `split2_corners`, `split_first1`, `split_first2`, `star_rest`, `star_reversed`, `stepped_total`, `timestep_columns`, `timestep_even`, `timestep_line_ok`, `timestep_mirror_false`, `timestep_plane_ok`, `timestep_units`, `timestep_zoom`, `two_line`, `two_plane`, `whole_reversed`, `zoom_code`, `zoom_interface`, `zoom_ok`, `zoom_sourced`, `zoom_systemMatrix`
* `Step`: `ader1_uniform`, `ader1_unwritten`, `ader2_uniform`, `ader_para1`, `ader_para2_corners_false`, `ader_para2_partial`, `chunk_reconstruction_differs`, `chunks_partition`, `gpr_bdot_smul`, `isStep1_exists`, `isStep2_exists`, `mid1_advects`, `mid1_const`, `mid1_mean`, `mid1_rate`, `mid2_const`, `mid2_rate`, `schedule_exists`, `split_para1`, `split_para2_partial`
* `Stiff`: `contractive`, `dissipative`, `equilibrium`, `linear_root`, `linear_two`, `poly_exact`, `root_unique`, `sign_false`, `sign_two`, `solve_dissipative`, `stall`
* `Sys`: `E1_pressure`, `bdot_eq_block`, `bdot_hydro_zero`, `bdot_inviscid_false`, `bdot_inviscid_unset`, `bdot_linear`, `bint_self`, `boost_bdot`, `boost_flux`, `boost_maxAbsEigs`, `boost_pressure`, `boost_sigma`, `boost_temperature`, `cvec_pvec`, `cvec_pvec_false`, `cvec_pvec_inert`, `cvec_pvec_inviscid`, `cvec_pvec_mixture_iff`, `dFdP_jacobian`, `dFdP_thermal_false`, `dPdQ_inviscid_false`, `dTdrho_correct_iff`, `dissipate_left`, `dissipate_lin`, `dissipate_mirror`, `dissipate_real`, `dissipate_right`, `dissipate_unique`, `dsigmadA_agree`, `gpr_bdot_zero`, `gpr_conservative_components`, `hasDeriv_C0`, `hasDeriv_E1_p`, `hasDeriv_E1_rho`, `hasDeriv_E2A`, `hasDeriv_T_p`, `hasDeriv_cs2`, `hasDeriv_dEdp`, `hasDeriv_dEdrho`, `hasDeriv_eRef`, `hasDeriv_flux`, `hasDeriv_gammaMG`, `hasDeriv_pRef`, `hasDeriv_pvec`, `hasDeriv_stress`, `interface_consistent`, `interface_consistent_multi_partial`, `interface_multi_false`, `p2c_c2p`, `pressure_E1`, `pvec_cvec`, `sigmaCol_symm`, `sigma_symm`, `systemMatrix_quasilinear`, `units_bdot`, `units_flux`, `units_maxAbsEigs`, `units_pressure`, `units_temperature`
* `Weno`: `active_gap_n`, `coeffs_defined`, `coeffs_mean`, `coeffs_poly`, `oscillation_form`, `oscillation_garbage`, `oscillation_gram`, `setup_exists`, `weight_pos`, `weno1_conservative`, `weno1_line`, `weno1_near`, `weno1_negative`, `weno1_overshoot`, `weno1_positive`, `weno1_reproduces`, `weno1_units_false`, `weno2_conservative`, `weno2_reproduces`, `weno2x_one_row_undefined`, `weno_one_row_undefined`
