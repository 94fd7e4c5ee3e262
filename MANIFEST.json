{
 "claims": [
  {
   "property": "C01",
   "status": "proved",
   "theorems": [
    "Verif.Heap.heap_refines_queue",
    "Verif.Heap.heap_sorts"
   ],
   "note": "Distances over any linear order (no NaN)."
  },
  {
   "property": "C02",
   "status": "proved",
   "theorems": [
    "Verif.Heap.heap_refines_queue",
    "Verif.Heap.heap_set_then_pop"
   ],
   "note": ""
  },
  {
   "property": "C03",
   "status": "partial",
   "theorems": [
    "Verif.Heap.heap_in_bounds_partial",
    "Verif.Heap.heap_push_overrun",
    "Verif.Heap.heap_push_overrun_reachable"
   ],
   "note": "The full claim is false of the code: push checks the live count but stores at the total-push index; overrun proved reachable for every capacity. In-bounds proved while total pushes <= capacity."
  },
  {
   "property": "C04",
   "status": "partial",
   "theorems": [
    "Verif.March.distance_sign_partial",
    "Verif.March.distance_sign_violated",
    "Verif.March.distance_no_interface"
   ],
   "note": "1D and 2D grids, any size and spacing, fields with an interface and no value in (0, eps]. The full claim is false of the code: a value in (0, eps] ends with the wrong sign, and a field without interface becomes all zero."
  },
  {
   "property": "C05",
   "status": "partial",
   "theorems": [
    "Verif.March.distance_terminates",
    "Verif.March.distance_terminates_grid",
    "Verif.March.distance_reaches_all_partial"
   ],
   "note": "Termination, queue safety and no double acceptance hold for every field (any dimension). Completeness needs the absence of values in (0, eps], which the code can skip."
  },
  {
   "property": "C06",
   "status": "partial",
   "theorems": [
    "Verif.March.distance_eikonal_partial"
   ],
   "note": "Ordered acceptance (every cell is the nearest of those not accepted before) and the discrete eikonal equation over the cells accepted before, for fields without values in (0, eps]; real arithmetic."
  },
  {
   "property": "C07",
   "status": "proved",
   "theorems": [
    "Verif.March.distance_interface_values"
   ],
   "note": "Every field, any dimension; real arithmetic."
  },
  {
   "property": "C08",
   "status": "partial",
   "theorems": [
    "Verif.March.renormalize_keeps_material_partial",
    "Verif.March.renormalize_changes_material"
   ],
   "note": "True when every level set has an interface and no value in (0, eps]; false otherwise: a level set negative everywhere is zeroed and the material index of every cell changes."
  },
  {
   "property": "C09",
   "status": "proved",
   "theorems": [
    "Verif.Grid.boundaries_interior"
   ],
   "note": "Cell values are opaque; every boundary code, 1D and 2D."
  },
  {
   "property": "C10",
   "status": "proved",
   "theorems": [
    "Verif.Grid.boundaries_1d",
    "Verif.Grid.boundaries_2d",
    "Verif.Grid.boundaries_periodic",
    "Verif.Grid.boundaries_narrow_ub"
   ],
   "note": "Needs every axis to have at least N cells; narrower periodic axes read outside the array (boundaries_narrow_ub). Unknown boundary codes leave ghosts unset."
  },
  {
   "property": "C11",
   "status": "partial",
   "theorems": [
    "Verif.Grid.wall_preserves",
    "Verif.Grid.wall_velocity",
    "Verif.Grid.wall_pressure",
    "Verif.Grid.destress_wall_false"
   ],
   "note": "Density, total energy, pressure, |det A| and wall velocity with DESTRESS off (the shipped setting). With DESTRESS on |det A| is not preserved, proved for a stretched state and every valid singular value decomposition."
  },
  {
   "property": "C12",
   "status": "proved",
   "theorems": [
    "Verif.Grid.extend_mask_1d",
    "Verif.Grid.extend_mask_2d"
   ],
   "note": ""
  },
  {
   "property": "C13",
   "status": "proved",
   "theorems": [
    "Verif.Step.chunks_partition"
   ],
   "note": "Integer overflow of ithread*nx is not modelled."
  },
  {
   "property": "C14",
   "status": "partial",
   "theorems": [
    "Verif.Step.ader_para1",
    "Verif.Step.split_para1",
    "Verif.Step.ader_para2_partial",
    "Verif.Step.split_para2_partial",
    "Verif.Step.schedule_exists",
    "Verif.Step.chunk_reconstruction_differs",
    "Verif.Step.ader_para2_corners_false"
   ],
   "note": "Holds in 1D, and in 2D with NO_CORNERS off, for every interleaving of the workers' writes. False in 2D for the shipped NO_CORNERS = true: the reconstruction at the ends of a chunk drops stencils, proved with a four-row grid and two workers."
  },
  {
   "property": "C15",
   "status": "proved",
   "theorems": [
    "Verif.Fv.fv1_conservative",
    "Verif.Fv.fv2_conservative",
    "Verif.Fv.fv1_cell",
    "Verif.Fv.fv2_cell",
    "Verif.Fv.fv1_total",
    "Verif.Sys.gpr_conservative_components"
   ],
   "note": "Real arithmetic. The components without non-conservative product are density, energy and momentum (gpr_conservative_components)."
  },
  {
   "property": "C16",
   "status": "proved",
   "theorems": [
    "Verif.Step.ader1_uniform",
    "Verif.Step.ader2_uniform",
    "Verif.Step.isStep1_exists",
    "Verif.Step.isStep2_exists",
    "Verif.Sys.gpr_bdot_zero",
    "Verif.Newton.ader1_equilibrium",
    "Verif.Newton.ader2_equilibrium"
   ],
   "note": "Real arithmetic. ader1_uniform and ader2_uniform take any equations and assume a nonlinear solver that stays at a root; ader1_equilibrium and ader2_equilibrium are for the actual equations and the modelled Newton solver, for every inner linear solver. Two dimensions under the stencil-availability condition of C22."
  },
  {
   "property": "C17",
   "status": "proved",
   "theorems": [
    "Verif.Fv.fv1_masked",
    "Verif.Fv.fv2_masked"
   ],
   "note": ""
  },
  {
   "property": "C18",
   "status": "partial",
   "theorems": [
    "Verif.Sys.interface_consistent",
    "Verif.Sys.interface_consistent_multi_partial",
    "Verif.Sys.interface_multi_false",
    "Verif.Sys.bint_self",
    "Verif.Sys.bdot_inviscid_unset"
   ],
   "note": "True without the MULTI feature. False with it: flux assigns the mass-fraction component instead of adding. With VISCOUS off Bdot leaves its output unset."
  },
  {
   "property": "C19",
   "status": "proved",
   "theorems": [
    "Verif.Weno.weno1_conservative",
    "Verif.Weno.weno2_conservative",
    "Verif.Weno.coeffs_mean",
    "Verif.Weno.setup_exists"
   ],
   "note": "Real arithmetic; the indicator matrix starts from zeroed storage (see C21); two dimensions under the exact stencil-availability condition of C22."
  },
  {
   "property": "C20",
   "status": "proved",
   "theorems": [
    "Verif.Weno.weno1_reproduces",
    "Verif.Weno.weno2_reproduces",
    "Verif.Weno.coeffs_poly",
    "Verif.Weno.setup_exists"
   ],
   "note": "Same conditions as C19."
  },
  {
   "property": "C21",
   "status": "partial",
   "theorems": [
    "Verif.Weno.oscillation_gram",
    "Verif.Weno.oscillation_form",
    "Verif.Weno.weight_pos",
    "Verif.Weno.oscillation_garbage"
   ],
   "note": "True when the storage of the matrix held zeros. False as claimed: oscillation_indicator accumulates into an uninitialised matrix, and some contents make a weight divide by zero."
  },
  {
   "property": "C22",
   "status": "partial",
   "theorems": [
    "Verif.Weno.coeffs_defined",
    "Verif.Weno.active_zero",
    "Verif.Weno.active_gap_n",
    "Verif.Weno.active_gap_one",
    "Verif.Weno.weno_one_row_undefined",
    "Verif.Weno.weno2x_one_row_undefined"
   ],
   "note": "Exact characterisation of the grids on which every cell has a stencil. The full claim is false: with corners off, one-row grids or chunks at N=2 divide 0 by 0."
  },
  {
   "property": "C23",
   "status": "proved",
   "theorems": [
    "Verif.Poly.multiply_evaluates",
    "Verif.Poly.multiply_comm",
    "Verif.Poly.multiply_assoc"
   ],
   "note": "Any field."
  },
  {
   "property": "C24",
   "status": "proved",
   "theorems": [
    "Verif.Poly.diff_hasDerivAt",
    "Verif.Poly.diff_integrate",
    "Verif.Poly.integrate_zero",
    "Verif.Poly.diff_iterate",
    "Verif.Poly.divC_evaluates"
   ],
   "note": ""
  },
  {
   "property": "C25",
   "status": "proved",
   "theorems": [
    "Verif.Legendre.legval_correct",
    "Verif.Legendre.legder_correct",
    "Verif.Legendre.legder_hasDerivAt"
   ],
   "note": ""
  },
  {
   "property": "C26",
   "status": "proved",
   "theorems": [
    "Verif.Legendre.leggauss_exact",
    "Verif.Legendre.scaled_gauss_exact",
    "Verif.Legendre.leggauss_zero"
   ],
   "note": "Exact arithmetic; the eigenvalue solver is assumed to return the sorted roots of the characteristic polynomial of the companion matrix. N=0 is an index error."
  },
  {
   "property": "C27",
   "status": "proved",
   "theorems": [
    "Verif.Basis.basis_cardinal",
    "Verif.Basis.end_values_exact",
    "Verif.Basis.derivative_values_exact",
    "Verif.Basis.tables_2d_exact"
   ],
   "note": ""
  },
  {
   "property": "C28",
   "status": "proved",
   "theorems": [
    "Verif.Dg.kron_entry",
    "Verif.Dg.mixed_surj",
    "Verif.Dg.kron_short"
   ],
   "note": "Lists of two or more matrices, as every caller passes; a shorter list indexes before the start of the list."
  },
  {
   "property": "C29",
   "status": "proved",
   "theorems": [
    "Verif.Dg.der_integral",
    "Verif.Dg.end_products",
    "Verif.Dg.summation_by_parts",
    "Verif.Dg.constant_solves1",
    "Verif.Dg.constant_solves2",
    "Verif.Dg.mat_isUnit",
    "Verif.Dg.tab_exists"
   ],
   "note": "Exact arithmetic."
  },
  {
   "property": "C30",
   "status": "partial",
   "theorems": [
    "Verif.Dg.predictor_tolerance",
    "Verif.Dg.predictor1_accepts",
    "Verif.Dg.fixed_point_iff_zero1",
    "Verif.Dg.fixed_point_iff_zero2",
    "Verif.Dg.iterate_written",
    "Verif.Dg.iterate_unwritten",
    "Verif.Dg.predictor_unwritten"
   ],
   "note": "The tolerance and fixed-point parts hold. The full claim is false: an iteration that does not converge in DG_IT passes leaves the cell unwritten."
  },
  {
   "property": "C31",
   "status": "partial",
   "theorems": [
    "Verif.Iter.timestep_spec",
    "Verif.Iter.timestep_timely",
    "Verif.Iter.reach_time",
    "Verif.Iter.run_ends",
    "Verif.Iter.run_length",
    "Verif.Iter.timestep_nan",
    "Verif.Iter.timestep_second_axis_false"
   ],
   "note": "Exact arithmetic. The step never passes tf, is positive, and respects the bound for every speed max_abs_eigs returns; a run that ends without NaN has t = tf. False where max_abs_eigs is wrong: in two dimensions the step exceeds the CFL bound of the true wave speed (timestep_second_axis_false), and NaN speeds are ignored (timestep_nan)."
  },
  {
   "property": "C32",
   "status": "partial",
   "theorems": [
    "Verif.Iter.snapshots",
    "Verif.Iter.run_ends",
    "Verif.Iter.no_overrun_partial",
    "Verif.Iter.overrun_iff",
    "Verif.Iter.overrun_witness"
   ],
   "note": "Order, once each, and the final slot hold for every run; writes stay inside the slots for runs without NaN. False with NaN: the exact condition is overrun_iff, a run that meets it is overrun_witness."
  },
  {
   "property": "C33",
   "status": "proved",
   "theorems": [
    "Verif.Iter.limit_concentration_spec",
    "Verif.Iter.limit_concentration_off"
   ],
   "note": "Real arithmetic (no NaN)."
  },
  {
   "property": "C34",
   "status": "proved",
   "theorems": [
    "Verif.Iter.make_u_spec",
    "Verif.Iter.make_u_defined",
    "Verif.Iter.make_u_overrun"
   ],
   "note": "With more materials than level sets, which make_u needs: otherwise it indexes past the list (make_u_overrun)."
  },
  {
   "property": "C35",
   "status": "partial",
   "theorems": [
    "Verif.Fill.indicator_neg",
    "Verif.Fill.indicator_index",
    "Verif.Fill.indicator_unique",
    "Verif.Fill.distance_index_partial",
    "Verif.Fill.indicator_two_false"
   ],
   "note": "Proved for one more material than level sets, for the field before redistancing; after `distance` for fields with an interface in the domain and no value in (0, eps] (distance_index_partial). False with two materials and two level sets (indicator_two_false)."
  },
  {
   "property": "C36",
   "status": "proved",
   "theorems": [
    "Verif.Fill.find1_spec",
    "Verif.Fill.find2_spec"
   ],
   "note": "Exact signs of real fields."
  },
  {
   "property": "C37",
   "status": "proved",
   "theorems": [
    "Verif.Fill.layers_spec",
    "Verif.Fill.layers_defined",
    "Verif.Fill.walk_outside",
    "Verif.Fill.layers_keep"
   ],
   "note": "For every run in which the sources of the copies lie in the grid (layers_defined); walk_outside shows that only outside cells are numbered when the mask comes from find_interface_cells."
  },
  {
   "property": "C38",
   "status": "partial",
   "theorems": [
    "Verif.Sys.pressure_E1",
    "Verif.Sys.E1_pressure",
    "Verif.Sys.cvec_pvec",
    "Verif.Sys.pvec_cvec",
    "Verif.Sys.p2c_c2p",
    "Verif.Sys.cvec_pvec_inert",
    "Verif.Sys.cvec_pvec_inviscid",
    "Verif.Sys.cvec_pvec_mixture_iff",
    "Verif.Sys.cvec_pvec_false"
   ],
   "note": "The equation-of-state inverses hold always; the state round trips hold for viscous non-mixtures whose reaction setting matches MULTI. False otherwise, with the exact defect: inert material under MULTI, VISCOUS off, mixtures. Real arithmetic."
  },
  {
   "property": "C39",
   "status": "partial",
   "theorems": [
    "Verif.Sys.hasDeriv_gammaMG",
    "Verif.Sys.hasDeriv_pRef",
    "Verif.Sys.hasDeriv_eRef",
    "Verif.Sys.hasDeriv_E1_rho",
    "Verif.Sys.hasDeriv_E1_p",
    "Verif.Sys.hasDeriv_cs2",
    "Verif.Sys.hasDeriv_C0",
    "Verif.Sys.hasDeriv_dEdrho",
    "Verif.Sys.hasDeriv_dEdp",
    "Verif.Sys.hasDeriv_T_p",
    "Verif.Sys.dTdrho_correct_iff"
   ],
   "note": "Every listed function on the regular range of every equation of state; dTdrho is the derivative iff Tref is 0 (it omits Tref times the derivative of phi). dEdrho and dEdp for non-mixtures."
  },
  {
   "property": "C40",
   "status": "proved",
   "theorems": [
    "Verif.Sys.sigma_symm",
    "Verif.Sys.sigmaCol_symm",
    "Verif.Sys.hasDeriv_E2A",
    "Verif.Sys.hasDeriv_stress",
    "Verif.Sys.dsigmadA_agree"
   ],
   "note": "Derivatives along arbitrary curves of states; shear speed b0 not zero (dsigmadrho divides by it). Real arithmetic."
  },
  {
   "property": "C41",
   "status": "partial",
   "theorems": [
    "Verif.Sys.hasDeriv_pvec",
    "Verif.Sys.hasDeriv_flux",
    "Verif.Sys.dFdP_jacobian",
    "Verif.Sys.systemMatrix_quasilinear",
    "Verif.Sys.dFdP_thermal_false",
    "Verif.Sys.dPdQ_inviscid_false"
   ],
   "note": "Viscous non-mixtures of every equation of state, with or without THERMAL (Tref = 0) and MULTI. False with THERMAL and Tref not 0, and with VISCOUS off. Derivatives along arbitrary differentiable curves of states."
  },
  {
   "property": "C42",
   "status": "partial",
   "theorems": [
    "Verif.Sys.bdot_eq_block",
    "Verif.Sys.bdot_hydro_zero",
    "Verif.Sys.bdot_linear",
    "Verif.Sys.bdot_inviscid_false"
   ],
   "note": "True for every configuration with distortion. With VISCOUS off Bdot writes nothing although block transports the level sets."
  },
  {
   "property": "C43",
   "status": "proved",
   "theorems": [
    "Verif.Rot.rotation_matrix_proper",
    "Verif.Rot.rotate_back",
    "Verif.Rot.rotation_round_trip"
   ],
   "note": "Exact arithmetic; unit vectors of length 1, 2 or 3."
  },
  {
   "property": "C44",
   "status": "partial",
   "theorems": [
    "Verif.Rot.rotation_invariant",
    "Verif.Rot.rotated_traction",
    "Verif.Rot.rotate_inviscid_false"
   ],
   "note": "Viscous non-mixture configurations, with or without THERMAL and MULTI. With VISCOUS off rotate_tensors overwrites level-set components."
  },
  {
   "property": "C45",
   "status": "partial",
   "theorems": [
    "Verif.Eig.characteristic_bound",
    "Verif.Eig.system_primitive",
    "Verif.Eig.longitudinal_wave",
    "Verif.Eig.second_axis_false"
   ],
   "note": "The bound holds along the first axis for every regular non-mixture state, with or without THERMAL: every complex eigenvalue of system_matrix(Q,0) has modulus at most max_abs_eigs(Q,0). False along the second axis: Xi1 and Xi2 put the pressure and density terms in column 0, so max_abs_eigs(Q,1) leaves out the sound speed; proved for every unstretched state."
  },
  {
   "property": "C46",
   "status": "partial",
   "theorems": [
    "Verif.Iter.renorm_distortion_spec",
    "Verif.Iter.renorm_inviscid_false"
   ],
   "note": "Every viscous configuration with more materials than level sets; exact arithmetic. False with VISCOUS off: the call then overwrites level sets and the next cell."
  },
  {
   "property": "C47",
   "status": "partial",
   "theorems": [
    "Verif.Iter.reset_distortion_spec",
    "Verif.Iter.reset_uncontorted_partial",
    "Verif.Iter.reset_vacuum_false"
   ],
   "note": "Density, momentum, pressure and isotropy in every viscous configuration. The last part needs vacuum cells to hold singular distortions, as make_u leaves them: contorted does not skip vacuum, reset_distortion does (reset_vacuum_false)."
  },
  {
   "property": "C48",
   "status": "partial",
   "theorems": [
    "Verif.Iter.contorted_iff",
    "Verif.Iter.anisotropy_ge",
    "Verif.Iter.isotropic_not_contorted",
    "Verif.Iter.reset_vacuum_false"
   ],
   "note": "For every valid singular value decomposition. Vacuum cells count as well, so 'matter cell' in the statement is false (reset_vacuum_false); cells with singular distortion never count."
  },
  {
   "property": "C49",
   "status": "proved",
   "theorems": [
    "Verif.Iter.rotate_distortion_spec",
    "Verif.Iter.rotate_density_false"
   ],
   "note": "Every valid singular value decomposition, viscous configurations. The sign of det A may flip (rotate_density_false)."
  },
  {
   "property": "C50",
   "status": "proved",
   "theorems": [
    "Verif.Relax.relax_det"
   ],
   "note": "For every decomposition and every step whose result is a number; relax_nan shows a strained fluid for which it is not."
  },
  {
   "property": "C51",
   "status": "partial",
   "theorems": [
    "Verif.Relax.relax_zero_iff",
    "Verif.Relax.relax_zero_false"
   ],
   "note": "relax_zero_iff states exactly for which distortions it holds (singular values positive and in descending order, time scale defined). It fails whenever the product of the deviations of the squared stretches from their mean is negative and the two largest stretches differ, because the angle is taken with atan of a quotient; relax_zero_false gives stretches 2, 3/2, 1/3."
  },
  {
   "property": "C52",
   "status": "proved",
   "theorems": [
    "Verif.Relax.react",
    "Verif.Relax.reactionRate_nonneg",
    "Verif.Relax.nan_burns",
    "Verif.Relax.expansion_burns"
   ],
   "note": "Real arithmetic with NaN; rates of the three reaction types with non-negative coefficients. A rate that is NaN counts as complete burning (nan_burns), which happens for every expanded ignition-and-growth state with a fractional exponent (expansion_burns)."
  },
  {
   "property": "C53",
   "status": "proved",
   "theorems": [
    "Verif.Relax.linear",
    "Verif.Relax.const",
    "Verif.Relax.launcher_spec",
    "Verif.Relax.launcher_some",
    "Verif.Relax.converges"
   ],
   "note": "Exact arithmetic, NaN as a distinct value. The launcher gives up after 64 steps per interval and returns NaN then."
  },
  {
   "property": "C54",
   "status": "proved",
   "theorems": [
    "Verif.Newton.early_stop",
    "Verif.Newton.early_stop_nan"
   ],
   "note": "Numbers are reals with NaN and signed infinities. Eigen leaves the maximum norm of a vector with NaN open: with a norm that propagates NaN the residual is within the tolerance (early_stop_nan), otherwise it is or it contains a NaN (early_stop)."
  },
  {
   "property": "C55",
   "status": "proved",
   "theorems": [
    "Verif.Newton.lineSearch_spec"
   ],
   "note": "Numbers are reals with NaN and signed infinities; at most seven merit evaluations after the first are needed for any merit function."
  },
  {
   "property": "C56",
   "status": "partial",
   "theorems": [
    "Verif.Newton.stop_cause",
    "Verif.Newton.step_tolerance_false"
   ],
   "note": "False of the code: the step is declared again inside the loop, so the test always sees the initial value, the largest double. stop_cause states what does stop the solver; step_tolerance_false gives, for every smaller step tolerance, a run that goes on with residual in tolerance and zero steps."
  },
  {
   "property": "C57",
   "status": "partial",
   "theorems": [
    "Verif.Riemann.stick_velocity",
    "Verif.Riemann.slip_velocity_partial",
    "Verif.Riemann.slip_thermal_false",
    "Verif.Riemann.stick_traction",
    "Verif.Riemann.slip_traction",
    "Verif.Riemann.vacuum_traction",
    "Verif.Riemann.temperature_rate",
    "Verif.Riemann.stick_fixed",
    "Verif.Riemann.slip_fixed",
    "Verif.Riemann.collision"
   ],
   "note": "Velocities hold exactly, tractions in the linearisation along the step in primitive variables. False for slip with heat conduction: both rows of the right-hand matrix are written into the left-hand one and the other stays uninitialised (slip_thermal_false). Eigen's solvers enter through their contracts (Solvers.Ok, satisfiable by exists_ok)."
  },
  {
   "property": "C58",
   "status": "proved",
   "theorems": [
    "Verif.Riemann.left_star",
    "Verif.Riemann.starLoop_spec",
    "Verif.Riemann.left_star_inviscid"
   ],
   "note": "Real arithmetic with NaN; a pair counts as NaN as soon as one side is. The test for NaN precedes the rotation back, so an infinite component can still turn into a NaN. Materials with b02 = 0 never get an interface state (left_star_inviscid)."
  },
  {
   "property": "C59",
   "status": "proved",
   "theorems": [
    "Verif.Fill.gradient1",
    "Verif.Fill.gradient2",
    "Verif.Fill.gradient_two_false",
    "Verif.Fill.normal_unit"
   ],
   "note": "Exact arithmetic. With two cells along an axis the result is uninitialised memory (gradient_two_false)."
  },
  {
   "property": "C60",
   "status": "proved",
   "theorems": [
    "Verif.Dg.obj1_exact_solution",
    "Verif.Dg.obj2_exact_solution",
    "Verif.Dg.obj1_strong",
    "Verif.Dg.obj2_strong"
   ],
   "note": "Exact arithmetic."
  },
  {
   "property": "C61",
   "status": "proved",
   "theorems": [
    "Verif.Fill.ghost_keeps",
    "Verif.Fill.ghost_mask"
   ],
   "note": "For every run without an access outside the arrays; a cell visit is one atomic action, so the data race between neighbouring threads inside a visit is not covered."
  },
  {
   "property": "C62",
   "status": "partial",
   "theorems": [
    "Verif.Fill.ghost_states",
    "Verif.Fill.source_ne",
    "Verif.Fill.source_edges"
   ],
   "note": "Needs that no ghost or isolated cell is its own source, which source_ne gives away from the low ends of the axes. At a low end the conversion to int rounds up and a cell may copy itself, at a high end the code reads beyond the array (source_edges)."
  },
  {
   "property": "C63",
   "status": "proved",
   "theorems": [
    "Verif.Relax.source_conserved",
    "Verif.Relax.source_det",
    "Verif.Relax.source_heating",
    "Verif.Relax.source_dissipates",
    "Verif.Relax.theta1inv_nonneg"
   ],
   "note": "Viscous configurations, any curve whose derivative is the source. source_heating gives the exact rate: body forces change the momentum but do no work on the energy, so a moving material cools."
  },
  {
   "property": "C64",
   "status": "partial",
   "theorems": [
    "Verif.Relax.relax_limit",
    "Verif.Relax.moments_ode",
    "Verif.Relax.elastic_relaxed",
    "Verif.Relax.relax_nan"
   ],
   "note": "Newtonian fluids. Elastic solids are not left alone: the solver does not look at SOLID unless POWER_LAW is set (elastic_relaxed). For intermediate times the result may be NaN (relax_nan)."
  },
  {
   "property": "C65",
   "status": "partial",
   "theorems": [
    "Verif.Relax.thermal_exact",
    "Verif.Relax.thermal_deriv",
    "Verif.Relax.thermal_exact_false"
   ],
   "note": "Holds when the temperature is the internal energy over cv (ideal gas). False for other equations of state: the solver uses the energy over cv in place of the temperature (thermal_exact_false)."
  },
  {
   "property": "C66",
   "status": "proved",
   "theorems": [
    "Verif.Relax.ode_keeps",
    "Verif.Relax.odeLauncher_cells"
   ],
   "note": "Viscous configurations; for every valid singular value decomposition and every run in which all cells give numbers. The level-set part needs MULTI or no reaction, since otherwise the reaction works on the first level set."
  },
  {
   "property": "C67",
   "status": "partial",
   "theorems": [
    "Verif.Newton.stop_at_start",
    "Verif.Newton.within_tolerance_partial",
    "Verif.Newton.within_tolerance_false",
    "Verif.Newton.root_stays"
   ],
   "note": "Holds exactly when the residual is zero or some component of the start is at least one in absolute value (stop_at_start), because the relative step tolerance is the largest double rather than infinity. Otherwise the solver moves away (within_tolerance_false)."
  },
  {
   "property": "C68",
   "status": "partial",
   "theorems": [
    "Verif.Newton.numeric_step_partial",
    "Verif.Newton.nan_step"
   ],
   "note": "Holds if the residual at the full step has no NaN. False otherwise: the full step is then taken at once (nan_step)."
  },
  {
   "property": "C69",
   "status": "proved",
   "theorems": [
    "Verif.Krylov.lgmres_decreases",
    "Verif.Krylov.pass_optimal",
    "Verif.Krylov.pass_descent"
   ],
   "note": "Exact arithmetic, no preconditioner (psolve is the identity in the code). Eigen's QR and least-squares solvers enter through their contracts, which are shown to be satisfiable (isQR_exists, isLsq_exists)."
  },
  {
   "property": "C70",
   "status": "proved",
   "theorems": [
    "Verif.Krylov.pass_small",
    "Verif.Krylov.no_breakdown",
    "Verif.Krylov.jacVec_affine",
    "Verif.Krylov.newton_affine",
    "Verif.Krylov.isQR_exists",
    "Verif.Krylov.isLsq_exists"
   ],
   "note": "As C69, without vectors kept from earlier calls. The exception for the breakdown threshold is stated explicitly (Breakdown) and does not arise for a zero threshold (no_breakdown)."
  },
  {
   "property": "C71",
   "status": "proved",
   "theorems": [
    "Verif.Riemann.outgoing",
    "Verif.Riemann.star_outgoing"
   ],
   "note": "Viscous configurations; star_outgoing without heat conduction, outgoing for any configuration whose acoustic tensor is diagonalisable with positive eigenvalues."
  },
  {
   "property": "C72",
   "status": "partial",
   "theorems": [
    "Verif.Riemann.tensor3_symm",
    "Verif.Riemann.tensor_real",
    "Verif.Riemann.hyperbolic",
    "Verif.Riemann.hyperbolic_plain",
    "Verif.Riemann.hyperbolic_heat",
    "Verif.Riemann.rise_eq",
    "Verif.Riemann.no_longitudinal",
    "Verif.Riemann.heat_false"
   ],
   "note": "Symmetry and hyperbolicity without heat conduction along the first axis, for states with a positive acoustic tensor. With heat conduction the claim is false if the shear modulus depends on the density: heat_false gives a drawn material with positive temperature and positive definite acoustic tensor whose eigenvectors with real eigenvalues do not span the state space. It holds (hyperbolic_heat) if adiabatic compression heats the material and the isothermal acoustic tensor is positive definite, for states whose shear stress does not enter the pressure; rise_eq identifies the first condition with the temperature being above its reference curve. Along the other axes the code's tensor is wrong, see C45."
  },
  {
   "property": "C73",
   "status": "proved",
   "theorems": [
    "Verif.Riemann.bcs_some",
    "Verif.Riemann.Y0_pos",
    "Verif.Riemann.unit_defined"
   ],
   "note": "Viscous configurations without heat conduction, whenever the constraints can be formed (Defined), which unit_defined gives for undistorted states."
  },
  {
   "property": "C74",
   "status": "proved",
   "theorems": [
    "Verif.Riemann.left_star_free",
    "Verif.Riemann.left_star_match",
    "Verif.Riemann.left_star_idle",
    "Verif.Riemann.left_star_keeps",
    "Verif.Riemann.rotated_total"
   ],
   "note": "Viscous configurations, real arithmetic. The mass fraction is kept as long as the density does not vanish on the way."
  },
  {
   "property": "C75",
   "status": "proved",
   "theorems": [
    "Verif.Krylov.precond_decreases",
    "Verif.Krylov.wrapper_small",
    "Verif.Krylov.wrapper_decreases",
    "Verif.Krylov.kept"
   ],
   "note": "Exact arithmetic, injective preconditioners, at most outer_k vectors given; exception of the breakdown threshold as in C70. A singular preconditioner that annihilates the residual makes the code divide zero by zero."
  },
  {
   "property": "C76",
   "status": "proved",
   "theorems": [
    "Verif.Stiff.dissipative",
    "Verif.Stiff.contractive",
    "Verif.Stiff.root_unique",
    "Verif.Stiff.solve_dissipative",
    "Verif.Stiff.linear_root"
   ],
   "note": "Exact arithmetic for the equations; the Newton run with NaN and infinities. Existence of a solution is proved for linear decay (linear_root)."
  },
  {
   "property": "C77",
   "status": "proved",
   "theorems": [
    "Verif.Stiff.poly_exact",
    "Verif.Stiff.equilibrium"
   ],
   "note": "Exact arithmetic. The first part is about the equations; the Newton solver reaches their solution only up to its tolerance."
  },
  {
   "property": "C78",
   "status": "partial",
   "theorems": [
    "Verif.Stiff.linear_two",
    "Verif.Stiff.sign_two",
    "Verif.Stiff.sign_false",
    "Verif.Stiff.stall"
   ],
   "note": "False of the code. With the default two nodes the value changes sign exactly for steps longer than three decay times (sign_two, sign_false), and a quantity of size at least one does not move at all in steps over which its change is below the Newton tolerance (stall)."
  },
  {
   "property": "C79",
   "status": "partial",
   "theorems": [
    "Verif.Riemann.eigen_waves",
    "Verif.Riemann.eigen_contacts",
    "Verif.Riemann.eigen_regular",
    "Verif.Riemann.contact_pressure_iff",
    "Verif.Riemann.contact_false",
    "Verif.Riemann.eigen_thermal_singular"
   ],
   "note": "Waves: any configuration with distortion. Contacts and completeness: without heat conduction where the shear speed is the one at the reference density. Otherwise false: the function uses b02 in place of c_s^2, so the contact columns for density and pressure are wrong (contact_pressure_iff, contact_false), and with heat conduction six columns stay zero (eigen_thermal_singular). Only d = 0, the only value the library passes."
  },
  {
   "property": "C80",
   "status": "partial",
   "theorems": [
    "Verif.Mix.mixture",
    "Verif.Mix.obj_zero_iff",
    "Verif.Mix.pure_phase",
    "Verif.Mix.same_material",
    "Verif.Mix.negative_root"
   ],
   "note": "Real equations of state, Newton run with NaN and infinities. Positivity of a phase density is proved only for equations of state that take the density to a fractional power, which makes negative densities NaN; with integer exponents the equations have solutions of negative density (negative_root). Whether the Newton solver meets its tolerance is a hypothesis, met for instance by same_material."
  },
  {
   "property": "C81",
   "status": "partial",
   "theorems": [
    "Verif.Mix.mixture_rate",
    "Verif.Mix.missing_ideal",
    "Verif.Mix.dEdp_correct_iff",
    "Verif.Mix.dEdp_false"
   ],
   "note": "False in general: dEdp leaves out the change of the phase densities with pressure. mixture_rate gives the exact missing term, which vanishes for two ideal gases (missing_ideal). Reference temperatures zero."
  },
  {
   "property": "C82",
   "status": "proved",
   "theorems": [
    "Verif.Mix.one_equilibrium",
    "Verif.Mix.energy_floor",
    "Verif.Mix.dalton"
   ],
   "note": "Gases with positive heat capacity, adiabatic index above one and reference temperature zero, any reference pressure."
  },
  {
   "property": "C83",
   "status": "proved",
   "theorems": [
    "Verif.Newton.step_length",
    "Verif.Newton.trial_minimum"
   ],
   "note": "Residuals that are real at real points and NaN somewhere at a point of NaNs; the search itself runs with NaN and infinities."
  },
  {
   "property": "C84",
   "status": "proved",
   "theorems": [
    "Verif.Newton.forcing"
   ],
   "note": "Stated as independence of the run from how the linear solver answers any other call."
  },
  {
   "property": "C85",
   "status": "proved",
   "theorems": [
    "Verif.Newton.newton_linear"
   ],
   "note": "Exact arithmetic for the Krylov iteration, NaN and infinities in the Newton loop and the line search. Householder QR and the triangular least-squares solve by their specification, instances of which exist (isQR_exists, isLsq_exists)."
  },
  {
   "property": "C86",
   "status": "partial",
   "theorems": [
    "Verif.Relax.relax_rate",
    "Verif.Relax.factor_one_iff",
    "Verif.Relax.bingham_relaxed",
    "Verif.Relax.elastic_relaxed"
   ],
   "note": "relax_rate proves it for Newtonian fluids, power-law fluids and power-law solids up to the ratio of the shear moduli that solver and source term use, which factor_one_iff shows to be one exactly for solids, for constant shear moduli and at the reference density; the stretches are distinct and on the side where relaxing over no time is the identity (C51), solids are below the cap on the stress. False for Bingham fluids below their yield stress and for elastic solids, which the analytic solver relaxes like a Newtonian fluid (bingham_relaxed, elastic_relaxed)."
  },
  {
   "property": "C87",
   "status": "proved",
   "theorems": [
    "Verif.Relax.power_time",
    "Verif.Relax.cSolid_eq",
    "Verif.Relax.cFluid_eq",
    "Verif.Relax.solid_total",
    "Verif.Relax.fluid_total"
   ],
   "note": "Real arithmetic, for positive equivalent stress."
  },
  {
   "property": "C88",
   "status": "proved",
   "theorems": [
    "Verif.Run.run_sound",
    "Verif.Run.finish_spec"
   ],
   "note": "Viscous configurations. The part on volume is for cells of positive density whose distortion is regular; a field stored because it contains a NaN is excepted. What the steppers, the interface fill and the boundaries hand to make_u is arbitrary. With LSET = 0 the code copies the only grid instead of calling make_u, which is the same for one material that is not vacuum."
  },
  {
   "property": "C89",
   "status": "partial",
   "theorems": [
    "Verif.Run.run_conserves",
    "Verif.Run.stepped_total",
    "Verif.Run.snapshot_reached",
    "Verif.Run.corners_leak"
   ],
   "note": "Viscous configurations with LSET = 0, real arithmetic, densities positive and shear energy non-negative for the part on energy growth. Proved for lines, for both steppers, and for planes without NO_CORNERS. False for planes with NO_CORNERS, the shipped setting: reconstructions of one face at opposite edges differ, and corners_leak shows a field whose total momentum the split stepper changes for every step length."
  },
  {
   "property": "C90",
   "status": "proved",
   "theorems": [
    "Verif.Step.mid1_rate",
    "Verif.Step.mid2_rate",
    "Verif.Step.mid1_const",
    "Verif.Step.mid2_const",
    "Verif.Step.mid1_mean",
    "Verif.Step.mid1_advects",
    "Verif.Step.gpr_bdot_smul"
   ],
   "note": "Real arithmetic. The statements on means and on linear profiles are for one dimension. gpr_bdot_smul shows that the nonconservative part of the GPR equations is linear, as the theorems on the rate need."
  },
  {
   "property": "C91",
   "status": "proved",
   "theorems": [
    "Verif.Run.run_rest",
    "Verif.Run.code_steady",
    "Verif.Run.mirrors_open",
    "Verif.Run.mirrors_wall",
    "Verif.Run.moves_rest",
    "Verif.Run.finish_rest"
   ],
   "note": "Viscous configurations with LSET = 0, one material that is not vacuum, real arithmetic, ROTATE_DISTORTION off. run_rest takes the predictor and the half step as given to be steady at the state; code_steady shows this of the modelled Picard, Newton and half-step code. Symmetric walls are covered for diagonal distortions."
  },
  {
   "property": "C92",
   "status": "partial",
   "theorems": [
    "Verif.Run.run_columns",
    "Verif.Run.moves_columns",
    "Verif.Run.finish_copy",
    "Verif.Run.runs_twin",
    "Verif.Run.timestep_columns",
    "Verif.Run.columns_corners_false"
   ],
   "note": "Proved without NO_CORNERS for viscous configurations, real arithmetic, Picard iteration that comes to an end within DG_IT iterations in the cells of the line (unsplit) or any data (split); timestep_columns is for one material. False with NO_CORNERS, the shipped setting: columns_corners_false shows a plane field without variation along y that one call of the split stepper turns into something that is not made of columns of what any stepper makes of the line. With N = 1 the option has no effect (columns_first, C106). Missing: Newton-Krylov prediction (STIFF), and several materials."
  },
  {
   "property": "C93",
   "status": "partial",
   "theorems": [
    "Verif.Run.run_shift1",
    "Verif.Run.run_shift2",
    "Verif.Run.moves_shift1",
    "Verif.Run.moves_shift2",
    "Verif.Run.pads_shift1",
    "Verif.Run.pads_shift2",
    "Verif.Run.shift_corners_false"
   ],
   "note": "Lines (run_shift1), and planes without NO_CORNERS (run_shift2); one material, viscous configurations, real arithmetic; with the unsplit stepper the predictor has to come to an end in every cell. With the shipped NO_CORNERS = true it is false on planes: shift_corners_false gives two planes of any number of rows from six on, shifts of one another, whose results after one split step are not (the reconstruction of a cell depends on its place in the chunk of rows, C14, C89). With N = 1 the option has no effect (shift_first, C106)."
  },
  {
   "property": "C94",
   "status": "partial",
   "theorems": [
    "Verif.Relax.relax_choice",
    "Verif.Relax.relax_turn",
    "Verif.Relax.ode_turn",
    "Verif.Relax.relax_choice_iff",
    "Verif.Relax.relax_choice_false",
    "Verif.Relax.relax_jump"
   ],
   "note": "Proved for states whose stretches are distinct, or so close that the solver leaves them alone. False where two stretches coincide: relax_choice_iff says exactly when the choice does not matter, relax_choice_false gives a Newtonian fluid for which exchanging two singular vectors of equal stretch changes the result, and relax_jump shows that then no choice makes the result continuous. Real arithmetic."
  },
  {
   "property": "C95",
   "status": "partial",
   "theorems": [
    "Verif.Run.run_mirror",
    "Verif.Run.run_symmetric",
    "Verif.Run.moves_mirror",
    "Verif.Run.finish_mirror",
    "Verif.Run.destress_img",
    "Verif.Rot.gpr_mirrored",
    "Verif.Rot.rusanov_mirrored",
    "Verif.Rot.mirror_svd_exists",
    "Verif.Dg.tab_sym",
    "Verif.Run.env_mirror_eig",
    "Verif.Run.roe_fluxMirrored",
    "Verif.Run.osher_fluxMirrored",
    "Verif.Run.facesLine_rest"
   ],
   "note": "One material, viscous configurations, real arithmetic, STIFF = 0. The interface function is assumed to have no preferred side, which rusanov_mirrored shows of the Rusanov flux without MULTI, and env_mirror_eig of the Roe and Osher fluxes at the interfaces where eigenvectors span (FacesLine); with MULTI it is false (C18, interface_multi_false). With the unsplit stepper the predictor has to come to an end in every cell; with the split stepper Eigen's singular vectors have to be mirrored with the distortion up to their signs, or not to matter (C94); mirror_svd_exists shows that such decompositions exist. With ROTATE_DISTORTION they have to be mirrored on both sides."
  },
  {
   "property": "C96",
   "status": "proved",
   "theorems": [
    "Verif.Sys.dissipate_unique",
    "Verif.Sys.dissipate_real",
    "Verif.Sys.dissipate_lin",
    "Verif.Sys.dissipate_right",
    "Verif.Sys.dissipate_left",
    "Verif.Sys.dissipate_mirror",
    "Verif.Rot.interface_unique",
    "Verif.Rot.roe_right",
    "Verif.Rot.roe_mirrored",
    "Verif.Rot.osher_mirrored",
    "Verif.Rot.mir_systemMatrix",
    "Verif.Rot.spans_plain",
    "Verif.Rot.spans_heat",
    "Verif.Rot.osher_defined",
    "Verif.Rot.streams_meet"
   ],
   "note": "Real arithmetic; Eigen is assumed to return eigenvectors and to solve the linear system wherever eigenvectors span (EigOk; such a solver exists, eigOk_exists). For D_ROE on more than one node that the eigenvectors of the averaged matrix span is a hypothesis."
  },
  {
   "property": "C97",
   "status": "proved",
   "theorems": [
    "Verif.Dg.nodes_inside",
    "Verif.Dg.code_nodes_inside",
    "Verif.Dg.between"
   ],
   "note": "Exact arithmetic; the nodes are the eigenvalues of the companion matrix of C26."
  },
  {
   "property": "C98",
   "status": "proved",
   "theorems": [
    "Verif.Run.run_similar",
    "Verif.Run.moves_zoom",
    "Verif.Run.timestep_zoom",
    "Verif.Run.zoom_code",
    "Verif.Run.zoom_ok",
    "Verif.Run.zoom_sourced",
    "Verif.Run.zoom_interface",
    "Verif.Run.zoom_systemMatrix",
    "Verif.Run.finish_zoom",
    "Verif.Relax.zoom_odeCell",
    "Verif.Relax.zoom_source",
    "Verif.Relax.zoom_nondimTime"
   ],
   "note": "One material, real arithmetic, viscous configurations for the predictors (zoom_code). E.zoom is again what the code computes for the slower material: zoom_ok, zoom_sourced, zoom_code, zoom_interface. The mixture solver of solve_multi does not see the parameters that change (hmix)."
  },
  {
   "property": "C99",
   "status": "proved",
   "theorems": [
    "Verif.Relax.moving_solves",
    "Verif.Sys.boost_flux",
    "Verif.Sys.boost_bdot",
    "Verif.Sys.boost_pressure",
    "Verif.Sys.boost_temperature",
    "Verif.Sys.boost_sigma",
    "Verif.Sys.boost_maxAbsEigs",
    "Verif.Relax.boost_source",
    "Verif.Relax.boost_rate",
    "Verif.Relax.boost_odeCell",
    "Verif.Riemann.boost_starStepper",
    "Verif.Riemann.boost_leftStar"
   ],
   "note": "Real arithmetic, configurations with distortion. About the equations, the source half step and the interface states; the finite volume scheme itself depends on the observer, as its numerical diffusion depends on max_abs_eigs. contact_solves gives a solution that is not constant, for which moving_solves applies."
  },
  {
   "property": "C100",
   "status": "partial",
   "theorems": [
    "Verif.Run.run_line_dense",
    "Verif.Run.run_plane_dense",
    "Verif.Run.line_dense",
    "Verif.Run.plane_dense",
    "Verif.Run.line_loss",
    "Verif.Run.plane_loss",
    "Verif.Run.timestep_line_ok",
    "Verif.Run.timestep_plane_ok",
    "Verif.Run.destress_mass"
   ],
   "note": "One material, viscous configurations, Rusanov flux, STIFF = 0, real arithmetic. Proved for N = 1, with and without NO_CORNERS; the shipped N = 2 is covered by second_dense (C102: lines, split stepper, no half step) and by line_loss and plane_loss, which take positive densities at the faces as given. With the unsplit stepper the predictor has to come to an end in every cell, with the split stepper the source terms have to give numbers (LineRuns, PlaneRuns). That the states after prediction or source terms meet the condition on the step is a hypothesis; timestep checks it for the cells before."
  },
  {
   "property": "C101",
   "status": "partial",
   "theorems": [
    "Verif.Run.line_level",
    "Verif.Run.plane_level",
    "Verif.Run.run_line_level",
    "Verif.Run.run_plane_level",
    "Verif.Run.line_bounds",
    "Verif.Run.plane_bounds",
    "Verif.Run.right_only",
    "Verif.Run.fraction_step",
    "Verif.Run.fraction_negative",
    "Verif.Run.fraction_clipped",
    "Verif.Run.level_overshoot"
   ],
   "note": "One material, viscous configurations, N = 1, Rusanov flux, any NO_CORNERS, real arithmetic. With the shipped N = 2 the bound is false: level_overshoot (C102). That the states after prediction or source terms meet the condition on the step is a hypothesis. For mass fractions the bound is false: fraction_negative (lines, no reaction, no body force), for all three interface functions (right_only)."
  },
  {
   "property": "C102",
   "status": "proved",
   "theorems": [
    "Verif.Weno.weno1_line",
    "Verif.Weno.weno1_near",
    "Verif.Weno.weno1_positive",
    "Verif.Weno.weno1_negative",
    "Verif.Weno.weno1_overshoot",
    "Verif.Run.second_dense",
    "Verif.Run.level_step",
    "Verif.Run.level_overshoot"
   ],
   "note": "One material, viscous configurations, real arithmetic. The source terms have to give numbers (SecondRuns), and the condition on the step is asked of the reconstructed states. The half step and the unsplit stepper are not covered by second_dense."
  },
  {
   "property": "C103",
   "status": "proved",
   "theorems": [
    "Verif.Fill.ghost_line_right",
    "Verif.Fill.ghost_line_left",
    "Verif.Fill.ghost_plane",
    "Verif.Fill.layers_follow",
    "Verif.Fill.boundary_fallback",
    "Verif.Fill.thin_layer_outside"
   ],
   "note": "phi is given as a distance; that the fast marching method returns it is proved for one surface on a line (C111). On planes the surface is perpendicular to an axis with the material on its low side; its mirror image is proved on lines only. The state behind the surface is that of cell k + 1 if the surface lies in the cell k of the first positive value and of cell k itself if it lies in the cell before."
  },
  {
   "property": "C104",
   "status": "proved",
   "theorems": [
    "Verif.Run.multi_deep",
    "Verif.Run.multi2_deep",
    "Verif.Run.two_line",
    "Verif.Run.two_plane",
    "Verif.Run.masked_local",
    "Verif.Run.masked2_local",
    "Verif.Run.masked_all"
   ],
   "note": "One pass, from the field after renormalize_levelsets; viscous configurations, real arithmetic. On planes NO_CORNERS is off (with the shipped setting and N = 2 the reconstruction of a cell depends on its place in a chunk of rows, C14, C93; with N = 1 the option has no effect, C106) and the cells the stencil reaches must not be isolated, because fill_ghost_cells treats isolated cells as ghost cells."
  },
  {
   "property": "C105",
   "status": "proved",
   "theorems": [
    "Verif.Run.multi_level",
    "Verif.Run.multi_dense",
    "Verif.Run.multi2_level",
    "Verif.Run.multi2_dense",
    "Verif.Run.masked_level",
    "Verif.Run.masked_dense",
    "Verif.Run.masked2_level",
    "Verif.Run.masked2_dense"
   ],
   "note": "One pass, from the field after renormalize_levelsets (which replaces level sets by distances, so there is no such bound for whole runs). Viscous configurations, real arithmetic, any NO_CORNERS. The condition on the step is on the states after prediction or source terms on the grid of each material (Clear, Clear2)."
  },
  {
   "property": "C106",
   "status": "proved",
   "theorems": [
    "Verif.Run.corners_first",
    "Verif.Run.corners_follow",
    "Verif.Run.ader2_corners",
    "Verif.Run.split2_corners",
    "Verif.Run.masked2_corners",
    "Verif.Run.columns_first",
    "Verif.Run.shift_first"
   ],
   "note": "Step by step the updates of a step are the same lists (ader2_corners, split2_corners); so are the steps with masks (masked2_corners) and the runs (corners_follow). Whether uninitialised memory is read is part of the model: the places left out hold arbitrary values."
  },
  {
   "property": "C107",
   "status": "proved",
   "theorems": [
    "Verif.Run.axes_false",
    "Verif.Run.rest_density",
    "Verif.Run.resting_runs"
   ],
   "note": "One material without heat conduction, reactions or body forces, viscous configurations, N = 1, Rusanov flux, STIFF = 0, real arithmetic. The omission in max_abs_eigs is part of C45 (second_axis_false)."
  },
  {
   "property": "C108",
   "status": "proved",
   "theorems": [
    "Verif.Run.line_cone",
    "Verif.Run.cone_near",
    "Verif.Run.plane_cone",
    "Verif.Run.cone2_near",
    "Verif.Run.finish_same",
    "Verif.Run.reset_far"
   ],
   "note": "One material, viscous configurations, real arithmetic. For the unsplit stepper the predictor must come to an end in every cell of the first run (SettlesAt). The step lengths are given, because timestep takes the maximum of the speeds over the grid. On planes NO_CORNERS is off (with N = 1 the option has no effect, C106)."
  },
  {
   "property": "C109",
   "status": "proved",
   "theorems": [
    "Verif.Sys.units_flux",
    "Verif.Sys.units_bdot",
    "Verif.Sys.units_pressure",
    "Verif.Sys.units_temperature",
    "Verif.Sys.units_maxAbsEigs",
    "Verif.Relax.units_source",
    "Verif.Relax.units_odeCell",
    "Verif.Relax.units_reactionRate",
    "Verif.Relax.units_nondimTime",
    "Verif.Relax.units_cap_false",
    "Verif.Weno.weno1_units_false",
    "Verif.Run.rusanov_units",
    "Verif.Run.destress_units",
    "Verif.Run.moves_units",
    "Verif.Run.moves2_units",
    "Verif.Run.finish_units",
    "Verif.Run.timestep_units",
    "Verif.Run.run_units",
    "Verif.Run.run2_units",
    "Verif.Run.moving_units_false"
   ],
   "note": "One material, viscous configurations, real arithmetic. The mixture solver is assumed to return pressure and density of the mixture in the other units (Fit.mix). Reactions without MULTI are excluded, because the code then divides a level set by a density. ader_stepper is not covered, as the tolerances of its solvers are absolute numbers."
  },
  {
   "property": "C110",
   "status": "proved",
   "theorems": [
    "Verif.Run.split_first1",
    "Verif.Run.split_first2"
   ],
   "note": "One material on the grid stepped, viscous configurations, real arithmetic."
  },
  {
   "property": "C111",
   "status": "partial",
   "theorems": [
    "Verif.March.distance_line_partial",
    "Verif.March.distance_neighbour_partial",
    "Verif.March.distance_front"
   ],
   "note": "Fields with an interface and without values in (0, eps]; real arithmetic. (Without an interface all distances are zero, and values in (0, eps] are treated as on the interface, C04-C08.)"
  },
  {
   "property": "C112",
   "status": "proved",
   "theorems": [
    "Verif.Run.run_contact_timed",
    "Verif.Run.contact_chooses",
    "Verif.Run.run_contact",
    "Verif.Run.contact_pass",
    "Verif.Run.contact_two",
    "Verif.Run.contact_exists",
    "Verif.Run.star_rest",
    "Verif.Run.contact_cell",
    "Verif.Run.finish_calm"
   ],
   "note": "Viscous configurations with one level set, without heat conduction and mixtures, real arithmetic, ROTATE_DISTORTION off, no body force or reaction, both b02 positive. After every pass the surface is at least two cells from the ends and its distance from the next cell centre ahead exceeds eps (hypothesis on the positions x0 + v t of the run). run_contact takes step lengths with dt max_abs_eigs <= dx on both sides; run_contact_timed takes those of timestep with CFL <= 1. At the two ends of the line the level set changes by up to dt max_abs_eigs in a pass and is restored by the next renormalize_levelsets."
  },
  {
   "property": "C113",
   "status": "proved",
   "theorems": [
    "Verif.Run.timestep_mirror_false",
    "Verif.Run.timestep_even",
    "Verif.Rot.mirror_second",
    "Verif.Rot.shear_speed_pos"
   ],
   "note": "Viscous configurations without heat conduction, one material without mixture or reaction, real arithmetic, A = [[1,s,0],[0,1,0],[0,0,1]] with s > 0. The misplaced column of Xi1 and Xi2 is part of C45."
  },
  {
   "property": "C114",
   "status": "proved",
   "theorems": [
    "Verif.March.distance_onto",
    "Verif.March.onto_first",
    "Verif.March.onto_second",
    "Verif.March.distance_front_first",
    "Verif.March.distance_front_second"
   ],
   "note": "Real arithmetic. What happens without an interface or with values in (0, eps] is C04-C08."
  },
  {
   "property": "C115",
   "status": "proved",
   "theorems": [
    "Verif.March.distance_upwind",
    "Verif.March.upwind_unique",
    "Verif.March.distance_alike",
    "Verif.March.distance_scale",
    "Verif.March.distance_mirror",
    "Verif.March.distance_swap",
    "Verif.March.alike_line",
    "Verif.March.alike_plane",
    "Verif.March.alike_swap",
    "Verif.March.distance_upwind_false"
   ],
   "note": "Real arithmetic. distance_alike with alike_self and factor 1 is the independence of memory, fuel and order; with alike_line and alike_plane the mirror images, with alike_swap the exchange of axes. What happens without an interface or with values in (0, eps] is C04-C08."
  },
  {
   "property": "C116",
   "status": "proved",
   "theorems": [
    "Verif.March.distance_straight",
    "Verif.March.distance_convex",
    "Verif.March.distance_disc",
    "Verif.March.distance_diagonal_false",
    "Verif.March.upwind_above"
   ],
   "note": "Real arithmetic. Convexity is used in the form that the level set of a cell has a supporting plane of slope at most k below the values of its neighbours (Support)."
  },
  {
   "property": "C117",
   "status": "proved",
   "theorems": [
    "Verif.March.distance_again",
    "Verif.March.line_even",
    "Verif.March.diagonal_even",
    "Verif.March.distance_drift_false",
    "Verif.March.drift_exists",
    "Verif.March.distance_thin_false",
    "Verif.March.thin_exists"
   ],
   "note": "Real arithmetic; fields with an interface and without values in (0, eps], before and after the first call."
  },
  {
   "property": "C118",
   "status": "proved",
   "theorems": [
    "Verif.Run.star_rest",
    "Verif.Run.slides_rot",
    "Verif.Run.run_contact_plane_timed",
    "Verif.Run.contact_chooses2",
    "Verif.Run.run_contact_plane",
    "Verif.Run.contact_pass2",
    "Verif.Run.contact_grids2",
    "Verif.Run.contact_two2",
    "Verif.Run.contact_exists2",
    "Verif.Run.contact_cell2",
    "Verif.Run.level_first2"
   ],
   "note": "Viscous configurations with one level set, without heat conduction and mixtures, real arithmetic, ROTATE_DISTORTION off, no body force or reaction, both b02 positive; surfaces orthogonal to the first axis. After every pass the surface is at least two cells from the ends and its distance from the next cell centres ahead exceeds eps (hypothesis on the positions x0 + v t of the run). In the first and last row of the plane the level set changes by up to dt max_abs_eigs in a pass and is restored by the next renormalize_levelsets."
  },
  {
   "property": "C119",
   "status": "proved",
   "theorems": [
    "Verif.Riemann.slip_idle",
    "Verif.Riemann.slip_shear_false",
    "Verif.Riemann.slab_traction",
    "Verif.Riemann.slab_pressure",
    "Verif.Riemann.rotated_first"
   ],
   "note": "Viscous configurations without heat conduction, real arithmetic. The property describes what the code does; that a sliding surface carries no shear traction is false of it."
  },
  {
   "property": "C120",
   "status": "proved",
   "theorems": [
    "Verif.Run.whole_reversed",
    "Verif.Run.make_u_reversed",
    "Verif.Run.fill_reversed",
    "Verif.Run.renormalised_reversed",
    "Verif.Run.renormalised_exists",
    "Verif.Run.distance_negated",
    "Verif.Run.star_reversed",
    "Verif.Riemann.leftStar_reversed",
    "Verif.Fill.ghost_reversed",
    "Verif.Fill.indicator_reversed",
    "Verif.Fill.reversed_index",
    "Verif.Run.reversed_index_false"
   ],
   "note": "Real arithmetic, configurations with distortion. fill_reversed starts from the field after renormalize_levelsets; whole_reversed includes that call, for cells of equal sides, level sets that all change sign, and no values in [-eps, eps] (distance treats values in (0, eps] and their negatives differently, C04-C08). In material_indicator and after it distance and finite_difference enter as arbitrary functions. NaN states are the outcome none of the model."
  },
  {
   "property": "C121",
   "status": "proved",
   "theorems": [
    "Verif.Step.fv1_reads",
    "Verif.Step.fv2_reads",
    "Verif.Step.ader1_unread",
    "Verif.Step.ader2_unread",
    "Verif.Step.ader1_unwritten"
   ],
   "note": "The predictor, the fluxes and the sources enter as arbitrary functions. That the condition on the predictor can fail is part of C30."
  }
 ]
}