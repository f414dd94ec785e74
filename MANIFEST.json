{
 "claims": [
  {
   "property": "C01",
   "status": "proved",
   "theorems": [
    "Verif.LinIso.C01_inverse"
   ],
   "note": "All of 1D, 2D plane strain/stress, axisymmetric and 3D; both products are the identity."
  },
  {
   "property": "C02",
   "status": "proved",
   "theorems": [
    "Verif.LinIso.C02_posdef",
    "Verif.LinIso.C02_energy_3d"
   ],
   "note": "C02_posdef covers every dimension/plane state and both stiffness and compliance; C02_energy_3d covers the reported energy in 3D."
  },
  {
   "property": "C03",
   "status": "proved",
   "theorems": [
    "Verif.LinIso.C03_rejects",
    "Verif.LinIso.C03_no_zero_divisor"
   ],
   "note": "Exact failure condition, no out-of-range access, no zero divisor."
  },
  {
   "property": "C04",
   "status": "proved",
   "theorems": [
    "Verif.LinIso.C04_hooke_3d",
    "Verif.LinIso.C04_hooke_axi",
    "Verif.LinIso.C04_hooke_plane_strain",
    "Verif.LinIso.C04_hooke_plane_stress"
   ],
   "note": "Refinement to Hooke's law for 3x3 tensors, per plane state."
  },
  {
   "property": "C05",
   "status": "proved",
   "theorems": [
    "Verif.Texture.C05_lookup",
    "Verif.Texture.C05_no_ub",
    "Verif.Texture.C05_lame",
    "Verif.Texture.C05_image"
   ],
   "note": "Lookup refines 'first matching interval in key order'; image reading loop verified."
  },
  {
   "property": "C06",
   "status": "proved",
   "theorems": [
    "Verif.Cont.C06_strain_3d",
    "Verif.Cont.C06_strain_2d",
    "Verif.Cont.C06_strain_1d",
    "Verif.Cont.C06_strain_axi",
    "Verif.Cont.C06_bad_input",
    "Verif.Cont.C06_rigid_3d",
    "Verif.Cont.C06_rigid_2d",
    "Verif.Cont.C06_rigid_axi"
   ],
   "note": "Every node count; 1D, 2D, 3D and axisymmetric; rigid motions give zero strain; unusable input reports failure."
  },
  {
   "property": "C07",
   "status": "proved",
   "theorems": [
    "Verif.Cont.C07_symmetric",
    "Verif.Cont.C07_energy_nonneg",
    "Verif.Cont.C07_null",
    "Verif.Cont.C07_rigid"
   ],
   "note": "Any number of points and nodes. C07_rigid ties the stiffness to the B-matrix the code computes."
  },
  {
   "property": "C08",
   "status": "proved",
   "theorems": [
    "Verif.Cont.C08_bilinear",
    "Verif.Cont.C08_entries",
    "Verif.Cont.C08_energy_nonneg",
    "Verif.Cont.C08_total_mass"
   ],
   "note": "Bilinear form, every entry, energy, total mass."
  },
  {
   "property": "C09",
   "status": "partial",
   "theorems": [
    "Verif.Cont.C09_resultant_partial",
    "Verif.Cont.C09_axi_traction_violated"
   ],
   "note": "Holds for every sequence of body forces and tractions in 2D/3D and for axisymmetric body forces; violated for axisymmetric boundary tractions (the resultant lacks the factor 2*pi*r)."
  },
  {
   "property": "C10",
   "status": "partial",
   "theorems": [
    "Verif.Cont.C10_symmetric",
    "Verif.Cont.C10_linear_partial",
    "Verif.Cont.C10_axi_tension_partial",
    "Verif.Cont.C10_axi_sign_violated"
   ],
   "note": "Symmetry holds always. Linearity holds in 2D/3D and for tensile hoop stress; violated in axisymmetry where a compressive hoop stress is dropped."
  },
  {
   "property": "C11",
   "status": "partial",
   "theorems": [
    "Verif.Modes.C11_linear_partial",
    "Verif.Modes.C11_bdf_dual_violated",
    "Verif.Modes.C11_nonlinear",
    "Verif.Modes.C11_roles_distinct",
    "Verif.Modes.C11_reuse_partial",
    "Verif.Modes.C11_reuse_violated"
   ],
   "note": "Proved for the total and updated Lagrangian elements in all modes and for linear elasticity except one corner. Counterexamples: BDF with a dual problem and intPrm[3]>0 uses an unallocated vector (C11_bdf_dual_violated); reuse of stored element matrices in a static analysis assigns to A[-1] (C11_reuse_violated)."
  },
  {
   "property": "C12",
   "status": "partial",
   "theorems": [
    "Verif.Modes.C12_fbar_partial",
    "Verif.Modes.C12_fbar_violated",
    "Verif.Modes.C12_mixed_partial",
    "Verif.Modes.C12_mixed_violated",
    "Verif.Modes.C12_mixed_alias_violated",
    "Verif.Modes.C12_mx_partial",
    "Verif.Modes.C12_mx_alias_violated",
    "Verif.Modes.C12_beam_partial",
    "Verif.Modes.C12_beam_hht_violated",
    "Verif.Modes.C12_bar_partial",
    "Verif.Modes.C12_bar_rhs_violated",
    "Verif.Modes.C12_cable_partial",
    "Verif.Modes.C12_cable_moment_violated",
    "Verif.Modes.C12_plate_shell",
    "Verif.Modes.C12_nlshell_partial",
    "Verif.Modes.C12_nlshell_violated"
   ],
   "note": "Proved for plates and linear shells in all modes; for the other elements in the modes listed in the hypotheses. Each excluded mode has a counterexample theorem (_violated)."
  },
  {
   "property": "C13",
   "status": "proved",
   "theorems": [
    "Verif.Modes.C13_no_trace",
    "Verif.Modes.C13_solution_vectors",
    "Verif.Modes.C13_hht_vectors"
   ],
   "note": "All six setMode functions, after every history of mode changes, load gradient requests and buffer requests."
  },
  {
   "property": "C14",
   "status": "partial",
   "theorems": [
    "Verif.Norms.C14_plane_strain",
    "Verif.Norms.C14_projected",
    "Verif.Norms.C14_distinct",
    "Verif.Norms.C14_slots_partial",
    "Verif.Norms.C14_integral",
    "Verif.Norms.C14_strain_violated",
    "Verif.Norms.C14_strain_functional_violated",
    "Verif.Norms.C14_boundary",
    "Verif.Norms.C14_effectivity",
    "Verif.Norms.C14_names",
    "Verif.Norms.C14_names_projection",
    "Verif.Norms.C14_names_partial",
    "Verif.Norms.C14_names_violated"
   ],
   "note": "Slots: for every number of projections (with or without an analytical solution, recovered stresses) each slot of the element norm vector holds the quantity its name says, proved as a refinement to an indexed specification (C14_slots_partial, C14_integral, C14_projected, C14_boundary, C14_effectivity, C14_names*). The code violates the claim when strains are given/plane strain (C14_strain_violated, C14_strain_functional_violated) and misnames functionals without an analytical solution (C14_names_violated)."
  },
  {
   "property": "C15",
   "status": "partial",
   "theorems": [
    "Verif.Norms.C15_interior_partial",
    "Verif.Norms.C15_two_projections_violated",
    "Verif.Norms.C15_names",
    "Verif.Norms.C15_boundary_partial",
    "Verif.Norms.C15_boundary_violated",
    "Verif.Norms.C15_own_basis_violated",
    "Verif.Norms.C15_jump_partial",
    "Verif.Norms.C15_jump_violated",
    "Verif.Norms.C15_effectivity"
   ],
   "note": "Plate norms: interior and boundary slots for one projection (partial) and names proved; violated for two projections (shared slot offset), for the boundary term with second analytical derivatives, for a projection with its own basis, and the jump term is not squared for version > 1 (C15_*_violated)."
  },
  {
   "property": "C16",
   "status": "proved",
   "theorems": [
    "Verif.Norms.C16_extreme",
    "Verif.Norms.C16_reset"
   ],
   "note": "Extreme values: for every sequence of evaluated values the stored value has the largest magnitude and the stored point is where it occurred, and a reset starts from zero."
  },
  {
   "property": "C17",
   "status": "proved",
   "theorems": [
    "Verif.Drivers.C17_predictor",
    "Verif.Drivers.C17_direction",
    "Verif.Drivers.C17_corrector_secant",
    "Verif.Drivers.C17_corrector_tangent",
    "Verif.Drivers.C17_accumulated",
    "Verif.Drivers.C17_terminates",
    "Verif.Drivers.C17_converged",
    "Verif.Drivers.C17_status",
    "Verif.Drivers.C17_tolerance",
    "Verif.Drivers.C17_growth"
   ],
   "note": "Predictor length, direction, corrector orthogonality (both variants), accumulated increments, termination, exact status conditions and consecutive-growth counter, all by induction over arbitrary histories in exact real arithmetic. The linear solver is a parameter."
  },
  {
   "property": "C18",
   "status": "partial",
   "theorems": [
    "Verif.Drivers.C18_stamp_partial",
    "Verif.Drivers.C18_stamp_violated",
    "Verif.Drivers.C18_only_converged",
    "Verif.Drivers.C18_restart",
    "Verif.Drivers.C18_return",
    "Verif.Drivers.C18_final_partial",
    "Verif.Drivers.C18_final_violated"
   ],
   "note": "Return status, only converged steps saved, restart from the previous solution: proved for every sequence of outcomes. Violated: the time stamp is stale after a cut-back (C18_stamp_violated), nothing is saved when the save interval exceeds the time span (C18_final_violated); partial theorems give the cases that work. Mesh adaptation and element activation are not modelled. TimeStep::cutback (IFEM) is assumed to change the time."
  },
  {
   "property": "C19",
   "status": "proved",
   "theorems": [
    "Verif.Drivers.C19_systems",
    "Verif.Drivers.C19_counts"
   ],
   "note": "Proved for every number of time steps and iterations. SIMmodal::swapSystem (IFEM) is assumed to exchange the two system pointers, and the Newmark driver to number iterations from zero in every step."
  },
  {
   "property": "C20",
   "status": "partial",
   "theorems": [
    "Verif.Plastic.C20_young",
    "Verif.Plastic.C20_bulk",
    "Verif.Plastic.C20_forms_partial",
    "Verif.Plastic.C20_shear_violated",
    "Verif.Plastic.C20_incompressible_violated",
    "Verif.Plastic.C20_neohooke",
    "Verif.Plastic.C20_neohooke_lambda",
    "Verif.Plastic.C20_neohooke_violated",
    "Verif.Plastic.C20_params"
   ],
   "note": "Moduli from both input forms and the textbook relations, over every ordered field. Violated: a shear modulus of at most 1/2 is taken for a Poisson ratio (C20_shear_violated), Poisson ratio 1/2 gives bulk modulus zero (C20_incompressible_violated), version 1 of the neo-Hookean material uses the bulk modulus in the place of the first Lam\u00e9 parameter (C20_neohooke_violated). C20_params gives the layout after construction."
  },
  {
   "property": "C21",
   "status": "partial",
   "theorems": [
    "Verif.Plastic.C21_iterations",
    "Verif.Plastic.C21_history_partial",
    "Verif.Plastic.C21_elastic",
    "Verif.Plastic.C21_restart_violated",
    "Verif.Plastic.C21_points"
   ],
   "note": "Histories of attempts and iterations of arbitrary length, by induction, for an arbitrary constitutive law; per-point independence for any visiting order. Violated: a failed attempt after the first load step is committed by the restart (C21_restart_violated), so C21_history_partial excludes that. Result points (always committed) are not covered."
  },
  {
   "property": "C22",
   "status": "partial",
   "theorems": [
    "Verif.Plastic.C22_mises",
    "Verif.Plastic.C22_drucker",
    "Verif.Plastic.C22_lode_partial",
    "Verif.Plastic.C22_lode_violated",
    "Verif.Plastic.C22_johnson_partial",
    "Verif.Plastic.C22_johnson_violated",
    "Verif.Plastic.C22_curve_partial",
    "Verif.Plastic.C22_curve_violated",
    "Verif.Plastic.C22_voce_partial",
    "Verif.Plastic.C22_voce_violated",
    "Verif.Plastic.C22_check_partial",
    "Verif.Plastic.C22_reject"
   ],
   "note": "All six criteria: first and second derivatives, mixed derivatives, hardening slope, as HasDerivAt over the reals, and the textbook form of the yield value. Violated: Prager-Lode never reports yielding (C22_lode_violated), Johnson-Cook slope without plastic strain (C22_johnson_violated), hardening curve together with a linear modulus (C22_curve_violated), out-of-range read for Voce from keyword input (C22_voce_violated). The return mapping that uses these functions is C118."
  },
  {
   "property": "C23",
   "status": "partial",
   "theorems": [
    "Verif.Plastic.C23_path_partial",
    "Verif.Plastic.C23_volume_violated",
    "Verif.Plastic.C23_repeat",
    "Verif.Plastic.C23_external",
    "Verif.Plastic.C23_external_dead"
   ],
   "note": "Induction over arbitrary loading paths. Violated when the volume ratio varies (C23_volume_violated): the accumulated integral is multiplied by the current ratio. The partial theorem is for constant volume ratio; external energy is proved for linear and constant tractions."
  },
  {
   "property": "C24",
   "status": "partial",
   "theorems": [
    "Verif.NeoHooke.C24_potential_partial",
    "Verif.NeoHooke.C24_undeformed_partial",
    "Verif.NeoHooke.C24_sign_partial",
    "Verif.NeoHooke.C24_potential_violated"
   ],
   "note": "Laws 1, 2, 3 and the fall-back law: pressure and modulus are HasDerivAt of the energy at every J \u2260 0 (C24_potential_partial); zero energy and pressure and modulus K in the undeformed state, sign of the pressure and positivity of the energy for laws 1-3. Violated by law 4 (C24_potential_violated): the pressure at J = 1 is K."
  },
  {
   "property": "C25",
   "status": "partial",
   "theorems": [
    "Verif.NeoHooke.C25_push_partial",
    "Verif.NeoHooke.C25_push2_partial",
    "Verif.NeoHooke.C25_energy",
    "Verif.NeoHooke.C25_reject",
    "Verif.NeoHooke.C25_axisymmetric_violated",
    "Verif.NeoHooke.C25_plane_violated"
   ],
   "note": "Push-forward proved for every deformation gradient in 3D and 2D for the linear material (C25_push_partial, C25_push2_partial), and the energy. Violated in axisymmetry (C25_axisymmetric_violated) and for four-component tangents with a plane deformation gradient (C25_plane_violated). The plastic material's own transformation is not covered."
  },
  {
   "property": "C26",
   "status": "partial",
   "theorems": [
    "Verif.NeoHooke.C26_standard_partial",
    "Verif.NeoHooke.C26_modified_partial",
    "Verif.NeoHooke.C26_frame",
    "Verif.NeoHooke.C26_undeformed_partial",
    "Verif.NeoHooke.C26_undeformed_violated",
    "Verif.NeoHooke.C26_plane_violated",
    "Verif.NeoHooke.C26_axisymmetric_violated",
    "Verif.NeoHooke.C26_reject"
   ],
   "note": "Both neo-Hookean versions in 3D: stress is the energy rate, tangent is the Truesdell-rate tangent with major symmetry (specification Hyperelastic), frame indifference of the stress, stress free undeformed state. Violated: volumetric law 4 (C26_undeformed_violated), out-of-range write in two dimensions with three components (C26_plane_violated), axisymmetric tangent of the modified version (C26_axisymmetric_violated)."
  },
  {
   "property": "C27",
   "status": "partial",
   "theorems": [
    "Verif.Finite.C27_variation_partial",
    "Verif.Finite.C27_axisymmetric_partial",
    "Verif.Finite.C27_hoop_violated",
    "Verif.Finite.C27_reject"
   ],
   "note": "Plane and solid elements with any number of nodes: deformation gradient, Green-Lagrange strain and its derivative (HasDerivAt) for every increment. Axisymmetry: in-plane components only; violated for the hoop component (C27_hoop_violated), which is never computed and whose variation is written to column 3 for all nodes."
  },
  {
   "property": "C28",
   "status": "partial",
   "theorems": [
    "Verif.Finite.C28_pressure_3d",
    "Verif.Finite.C28_pressure_2d",
    "Verif.Finite.C28_pressure_axi",
    "Verif.Finite.C28_dead",
    "Verif.Finite.C28_reject",
    "Verif.Finite.C28_traction_violated",
    "Verif.Finite.C28_default_violated"
   ],
   "note": "Nanson's formula for normal pressures in 3D, 2D and axisymmetry for every deformation gradient with positive determinant (C28_pressure_*), dead loads (C28_dead), rejection of inverted elements. Violated: other tractions with load option 1 are scaled by the volume ratio instead of the area ratio (C28_traction_violated); with the default load option 0 pressures do not follow the surface in the updated Lagrangian formulation (C28_default_violated)."
  },
  {
   "property": "C29",
   "status": "proved",
   "theorems": [
    "Verif.Fbar.C29_accept",
    "Verif.Fbar.C29_index"
   ],
   "note": "Accepts exactly the tensor product rules and never leaves its tables, given that the Gauss rule of that size exists in the library (the same rule produced the sampling points). One-dimensional elements are excluded: the evaluation always uses at least two directions."
  },
  {
   "property": "C30",
   "status": "proved",
   "theorems": [
    "Verif.Fbar.C30_det",
    "Verif.Fbar.C30_isochoric",
    "Verif.Fbar.C30_abs",
    "Verif.Fbar.C30_multiple"
   ],
   "note": "For every dimension and every pair of volume ratios; the case of different signs is described by C30_abs."
  },
  {
   "property": "C31",
   "status": "partial",
   "theorems": [
    "Verif.Fbar.C31_plane",
    "Verif.Fbar.C31_axisymmetric",
    "Verif.Fbar.C31_solid_partial",
    "Verif.Fbar.C31_solid_violated",
    "Verif.Fbar.C31_tangent_plane",
    "Verif.Fbar.C31_tangent_axisymmetric",
    "Verif.Fbar.C31_tangent_solid_partial",
    "Verif.Fbar.C31_gradient"
   ],
   "note": "Plane and axisymmetric matrices and the F-bar terms are proved, also as the linearisation of the internal force. In three dimensions the entry (9,3) uses the xy instead of the xz stress (line 398), see C31_solid_violated."
  },
  {
   "property": "C32",
   "status": "proved",
   "theorems": [
    "Verif.Mixed.C32_numbering",
    "Verif.Mixed.C32_matrix",
    "Verif.Mixed.C32_symmetric",
    "Verif.Mixed.C32_rhs"
   ],
   "note": "Both mixed blocks (displacement, volume change, pressure), any number of nodes; numbering is shown injective and exhaustive, every entry of the Newton matrix and right-hand side is identified, symmetry follows from that of the blocks."
  },
  {
   "property": "C33",
   "status": "proved",
   "theorems": [
    "Verif.Mixed.C33_volume",
    "Verif.Mixed.C33_moments",
    "Verif.Mixed.C33_reproduced",
    "Verif.Mixed.C33_constant",
    "Verif.Mixed.C33_reject",
    "Verif.Mixed.C33_gradient"
   ],
   "note": "Any number of integration points and modes. The first mode is assumed to be the constant one (utl::Pascal of the IFEM library). Inversion is taken to fail exactly for singular matrices."
  },
  {
   "property": "C34",
   "status": "proved",
   "theorems": [
    "Verif.Mixed.C34_projection",
    "Verif.Mixed.C34_stress",
    "Verif.Mixed.C34_recombine",
    "Verif.Mixed.C34_consistent"
   ],
   "note": "The 7x7 projected constitutive matrix: explicit projection formula, stress terms, and exactness of the recombination. The Fortran routine that uses the matrix is not modelled."
  },
  {
   "property": "C35",
   "status": "partial",
   "theorems": [
    "Verif.Contact.C35_active_partial",
    "Verif.Contact.C35_history_partial",
    "Verif.Contact.C35_active_violated",
    "Verif.Contact.C35_boundary",
    "Verif.Contact.C35_gap_point",
    "Verif.Contact.C35_nodal",
    "Verif.Contact.C35_gap_element",
    "Verif.Contact.C35_force_point",
    "Verif.Contact.C35_balance",
    "Verif.Contact.C35_force_element",
    "Verif.Contact.C35_tangent",
    "Verif.Contact.C35_semidefinite",
    "Verif.Contact.C35_tangent_open"
   ],
   "note": "Proved: weighted gap, contact forces as minus the penalty energy gradient, force balance between slave surface and body, symmetric non-negative tangent, and none for open nodes. Active set: exact except when the first iteration of the first step is repeated (first node stays active), shown by C35_active_violated."
  },
  {
   "property": "C36",
   "status": "partial",
   "theorems": [
    "Verif.Contact.C36_active_partial",
    "Verif.Contact.C36_active_violated",
    "Verif.Contact.C36_complementarity",
    "Verif.Contact.C36_status",
    "Verif.Contact.C36_linearised",
    "Verif.Contact.C36_coupling",
    "Verif.Contact.C36_forces",
    "Verif.Contact.C36_nodes",
    "Verif.Contact.C36_matrix",
    "Verif.Contact.C36_symmetric"
   ],
   "note": "Proved: multiplier equations are the contact conditions, coupling matrix and forces, node map, matrix layout and symmetry. Active set has the same defect as C35, shown by C36_active_violated."
  },
  {
   "property": "C37",
   "status": "proved",
   "theorems": [
    "Verif.Contact.C37_sphere",
    "Verif.Contact.C37_sphere_moved",
    "Verif.Contact.C37_cylinder",
    "Verif.Contact.C37_cylinder_moved",
    "Verif.Contact.C37_plane"
   ],
   "note": "Sphere, cylinder (with moving axis) and plane: gap gradient is the unit normal, geometric stiffness is the second derivative. Evaluated away from the centre or axis."
  },
  {
   "property": "C38",
   "status": "partial",
   "theorems": [
    "Verif.Contact.C38_sum",
    "Verif.Contact.C38_plane_partial",
    "Verif.Contact.C38_plane_violated",
    "Verif.Contact.C38_solid_partial",
    "Verif.Contact.C38_solid_violated"
   ],
   "note": "The weights always sum to one. In 2D they reproduce the contact point on one side of the first master point only (C38_plane_violated); in 3D the weights of points two and three are swapped and unsigned (C38_solid_violated), with the exact condition in C38_solid_partial."
  },
  {
   "property": "C39",
   "status": "proved",
   "theorems": [
    "Verif.Contact.C39_multipliers"
   ],
   "note": "Proved for every list of contact elements; node identities are the global numbers of the slave boundary nodes."
  },
  {
   "property": "C40",
   "status": "proved",
   "theorems": [
    "Verif.Beam.C40_energy",
    "Verif.Beam.C40_symmetric",
    "Verif.Beam.C40_rigid",
    "Verif.Beam.C40_nonneg",
    "Verif.Beam.C40_null"
   ],
   "note": "Strain energy as an explicit formula in the shear-flexible deformation modes, for every end displacement and shear centre offset; symmetry, six rigid-body motions, non-negativity and null space follow from it."
  },
  {
   "property": "C41",
   "status": "proved",
   "theorems": [
    "Verif.Beam.C41_matrix",
    "Verif.Beam.C41_vector",
    "Verif.Beam.C41_statics",
    "Verif.Beam.C41_symmetric",
    "Verif.Beam.C41_shear",
    "Verif.Beam.C41_nonneg"
   ],
   "note": "Both transformations are shown to be congruences with the kinematics of an offset node (forces act at minus the eccentricity from the node in the sign convention of the code); symmetry, statics and non-negativity are preserved."
  },
  {
   "property": "C42",
   "status": "partial",
   "theorems": [
    "Verif.Bar.C42_bar_lumped",
    "Verif.Bar.C42_bar_violated",
    "Verif.Bar.C42_bar_gravity",
    "Verif.Bar.C42_bar_shrink",
    "Verif.Bar.C42_bar_shrinkV",
    "Verif.Bar.C42_bar_axial_partial",
    "Verif.Beam.C42_symmetric",
    "Verif.Beam.C42_translation",
    "Verif.Beam.C42_total",
    "Verif.Beam.C42_rigid",
    "Verif.Beam.C42_rigid_lumped",
    "Verif.Beam.C42_gravity",
    "Verif.Beam.C42_centre",
    "Verif.Beam.C42_nonneg",
    "Verif.Beam.C42_integral",
    "Verif.Cable.C42_cable_mass"
   ],
   "note": "Beam: consistent matrix equals the integral of the Hermite and linear interpolations, total mass, rigid motion inertia and gravity resultants; lumped bar mass proved, the consistent bar mass couples the coordinate directions (C42_bar_violated)."
  },
  {
   "property": "C43",
   "status": "partial",
   "theorems": [
    "Verif.Beam.C43_stiffness_partial",
    "Verif.Beam.C43_inertia_partial",
    "Verif.Beam.C43_inertia_violated",
    "Verif.Beam.C43_torsion_violated",
    "Verif.Beam.C43_short_partial",
    "Verif.Beam.C43_short_violated"
   ],
   "note": "Constant functions reproduce the constant properties for all stiffness terms. Violated for the rotary inertia (the function is used without the density) and for the Ix function (used both as polar moment and as torsional constant)."
  },
  {
   "property": "C44",
   "status": "partial",
   "theorems": [
    "Verif.Bar.C44_tangent",
    "Verif.Bar.C44_energy",
    "Verif.Bar.C44_equilibrium",
    "Verif.Bar.C44_translation",
    "Verif.Bar.C44_buckling_violated",
    "Verif.Bar.C44_buckling_partial",
    "Verif.Bar.C44_degenerate",
    "Verif.Bar.C44_initial"
   ],
   "note": "Tangent and energy derivative for every strain measure, direction and slot numbering when material and geometric parts share one matrix; equilibrium of the nodal forces. Violated in a buckling analysis: the off-diagonal blocks of the separate geometric matrix are minus the material stiffness (C44_buckling_violated)."
  },
  {
   "property": "C45",
   "status": "partial",
   "theorems": [
    "Verif.Cable.C45_forces",
    "Verif.Cable.C45_tangent_partial",
    "Verif.Cable.C45_tangent_violated",
    "Verif.Cable.C45_symmetric"
   ],
   "note": "Beam/ElasticCable.C evalLocalAxes/evalInt. The internal forces are exactly minus the derivative of the elastic energy for every curved configuration (first variations exact). The tangent is proved exact when the sums of products at lines 243-251 and 343-351 equal the products of sums, and both matrices are symmetric; otherwise violated (witness: tangent (3,4,0) bent in its plane): the code sums bin_k*db_k*bin_k*db_k over k instead of multiplying the two sums."
  },
  {
   "property": "C46",
   "status": "partial",
   "theorems": [
    "Verif.Cable.C46_nodes",
    "Verif.Cable.C46_dofs",
    "Verif.Cable.C46_couple_partial",
    "Verif.Cable.C46_couple_violated",
    "Verif.Cable.C46_stiffness_partial",
    "Verif.Cable.C46_stiffness_first_violated",
    "Verif.Cable.C46_stiffness_last_violated",
    "Verif.Cable.C46_symmetric"
   ],
   "note": "Beam/ElasticCable.C evalBou. Violated: out of plane only part of the moment is represented; the load correction stiffness has the wrong sign in the y-columns at the first end and in the x-columns at the last end. Proved: nodes and components used, the planar couple, the two correct halves of the stiffness and the symmetrised variant."
  },
  {
   "property": "C47",
   "status": "partial",
   "theorems": [
    "Verif.Plate.C47_relation",
    "Verif.Plate.C47_gauss",
    "Verif.Plate.C47_energy",
    "Verif.Plate.C47_clamped",
    "Verif.Plate.C47_beam",
    "Verif.Plate.C47_beam_violated",
    "Verif.Plate.C47_planeStrain_violated",
    "Verif.Plate.C47_field_violated"
   ],
   "note": "Relation K1=(1-nu)K2+nu*K3, the energies of the three versions and their equality for clamped rectangles (integration by parts and Fubini) are proved for two-dimensional plane stress without a field for E. Violated for beams (nsd=1, nu\u22600), for plane strain materials (also the default material, which is plane strain) and for a field of Young's moduli, which versions 2 and 3 ignore. Missing: clamped plates of other shapes than rectangles; numerical quadrature is not modelled."
  },
  {
   "property": "C48",
   "status": "proved",
   "theorems": [
    "Verif.Shell.C48_rigid",
    "Verif.Shell.C48_energy",
    "Verif.Shell.C48_definite"
   ],
   "note": "Rigid-body motions (linearised) give no strain and no force on any curved geometry (C48_rigid); the stiffness is symmetric, its quadratic form is the strain energy (C48_energy) and vanishes only without strain and curvature change for admissible material data (C48_definite)."
  },
  {
   "property": "C49",
   "status": "partial",
   "theorems": [
    "Verif.Shell.C49_first",
    "Verif.Shell.C49_second",
    "Verif.Shell.C49_forces",
    "Verif.Shell.C49_tangent",
    "Verif.Shell.C49_rigid",
    "Verif.Shell.C49_recovery_partial",
    "Verif.Shell.C49_recovery_violated"
   ],
   "note": "First and second variations are exact derivatives (C49_first, C49_second), internal forces are minus the gradient of the strain energy (C49_forces), the tangent is their exact linearisation and symmetric (C49_tangent), finite rigid rotations give no strain and force (C49_rigid). Section forces recovered for output are right only where the normal is unchanged (C49_recovery_partial); otherwise the initial curvature is measured with the deformed normal and a rigid rotation of a curved shell yields moments (C49_recovery_violated, NLKirchhoffLoveShell.C:288)."
  },
  {
   "property": "C50",
   "status": "partial",
   "theorems": [
    "Verif.Shell.C50_nonlinear_partial",
    "Verif.Shell.C50_nonlinear_violated",
    "Verif.Shell.C50_equivalent",
    "Verif.Shell.C50_linear",
    "Verif.Shell.C50_principal",
    "Verif.Shell.C50_names"
   ],
   "note": "Holds for the linear shell. In the nonlinear shell the moments have the opposite sign, so stresses of the top surface are reported for the bottom and vice versa (C50_nonlinear_violated); C50_nonlinear_partial says exactly what is reported."
  },
  {
   "property": "C51",
   "status": "proved",
   "theorems": [
    "Verif.Analytic.C51_hole_equilibrium",
    "Verif.Analytic.C51_hole_rim",
    "Verif.Analytic.C51_hole_far",
    "Verif.Analytic.C51_hole_compatible",
    "Verif.Analytic.C51_cantilever_shear",
    "Verif.Analytic.C51_cantilever_moment",
    "Verif.Analytic.C51_curved_equilibrium",
    "Verif.Analytic.C51_curved_boundary",
    "Verif.Analytic.C51_curved_compatible",
    "Verif.Analytic.C51_lshape_free_edges",
    "Verif.Analytic.C51_pipe_equilibrium",
    "Verif.Analytic.C51_pipe_boundary",
    "Verif.Analytic.C51_lshape_equilibrium",
    "Verif.Analytic.C51_lshape"
   ],
   "note": "Hole, L-shape, both cantilevers, curved beam and pipe: HasDerivAt-based equilibrium at every interior point plus the traction conditions of each problem (rim and far field of the hole, free faces and end resultants of the beams, inner and outer wall of the pipe) and, where the solution is plane elastic, compatibility (harmonic trace)."
  },
  {
   "property": "C52",
   "status": "partial",
   "theorems": [
    "Verif.Analytic.C52_derivatives",
    "Verif.Analytic.C52_balance",
    "Verif.Analytic.C52_sum",
    "Verif.Analytic.C52_uniform_partial",
    "Verif.Analytic.C52_load_partial",
    "Verif.Analytic.C52_uniform_load",
    "Verif.Analytic.C52_patch_load",
    "Verif.Analytic.C52_point_load",
    "Verif.Analytic.C52_centre",
    "Verif.Analytic.C52_uniform_even",
    "Verif.Analytic.C52_uniform_violated",
    "Verif.Analytic.C52_load_violated",
    "Verif.Analytic.C52_circular_partial",
    "Verif.Analytic.C52_circular_axes",
    "Verif.Analytic.C52_circular_violated",
    "Verif.Analytic.C52_circular_deflection_violated",
    "Verif.Analytic.C52_stiffness",
    "Verif.Analytic.C52_no_term_lost"
   ],
   "note": "Navier series: derivative codes, term-by-term balance with the load, Fourier coefficients of uniform, patch and point loads (integrals and limit), and agreement of moments and deflection up to the number of terms taken along. Violated: (i) nTerm=1 (odd) with uniform load gives zero deflection and nonzero moments, (ii) the stop criterion ends the summation of the moments at a group of vanishing terms (patch of two thirds of the plate), (iii) the circular plate uses log10 for ln and inconsistent signs, so its moments neither balance the point load nor follow from its deflection; only the edge conditions hold."
  },
  {
   "property": "C53",
   "status": "proved",
   "theorems": [
    "Verif.LocalCS.C53_cylinder",
    "Verif.LocalCS.C53_cylinderPart",
    "Verif.LocalCS.C53_spherePart",
    "Verif.LocalCS.C53_invariants"
   ],
   "note": "Points on the cylinder axis or in the sphere centre are excluded; there the program divides by zero."
  },
  {
   "property": "C54",
   "status": "partial",
   "theorems": [
    "Verif.MainLinEl.C54_padding_result",
    "Verif.MainLinEl.C54_padding_partial",
    "Verif.MainLinEl.C54_padding_violated",
    "Verif.MainLinEl.C54_moments_violated",
    "Verif.MainLinEl.C54_no_nodes"
   ],
   "note": "Full statement in C54_padding_result for every field layout the library produces; the padding relocates or drops values when a nodal vector has more components per node than assumed, which is shown by C54_padding_violated and C54_moments_violated. The positive part is C54_padding_partial."
  },
  {
   "property": "C55",
   "status": "partial",
   "theorems": [
    "Verif.MainLinEl.C55_command_line",
    "Verif.MainLinEl.C55_last_option_wins",
    "Verif.MainLinEl.C55_check_exact",
    "Verif.MainLinEl.C55_check_partial",
    "Verif.MainLinEl.C55_check_violated",
    "Verif.MainLinEl.C55_analyses",
    "Verif.MainLinEl.C55_assembly_only",
    "Verif.MainLinEl.C55_drivers",
    "Verif.MainLinEl.C55_options_violated",
    "Verif.MainLinEl.C55_usage_violated",
    "Verif.MainLinEl.C55_short_token_violated",
    "Verif.MainLinEl.C55_value_tokens",
    "Verif.MainLinEl.C55_models",
    "Verif.MainLinEl.C55_modal_models",
    "Verif.MainLinEl.C55_models_violated",
    "Verif.MainLinEl.C55_value_options",
    "Verif.NLargs.C55_nonlinear_check",
    "Verif.NLargs.C55_nonlinear_check_violated"
   ],
   "note": "The two-pass scan of the command line, the choice of simulator and of driver are modelled token by token; the option parser of the library is an abstract function. Prefix comparisons make some tokens start analyses the user did not ask for (C55_options_violated), the usage text names an option that does not exist (C55_usage_violated), one option reads past the end of its token (C55_short_token_violated) and the check option does not stop every path (C55_check_violated). C55_check_partial and the remaining theorems hold for all argument lists."
  },
  {
   "property": "C56",
   "status": "partial",
   "theorems": [
    "Verif.Rigid.C56_lines",
    "Verif.Rigid.C56_tags",
    "Verif.Rigid.C56_no_content",
    "Verif.Rigid.C56_lines_violated",
    "Verif.Rigid.C56_equations",
    "Verif.Rigid.C56_patches_partial",
    "Verif.Rigid.C56_patches_violated",
    "Verif.Rigid.C56_reread_violated",
    "Verif.Rigid.C56_rigid_input",
    "Verif.Rigid.C56_rigid_input_violated",
    "Verif.Rigid.C56_rigid_partial",
    "Verif.Rigid.C56_rigid_reported",
    "Verif.Rigid.C56_rigid_nodes",
    "Verif.Rigid.C56_rigid_violated"
   ],
   "note": "Reading of complete lines, equations, patches, rigid input and reporting are proved for all inputs. Violated: an incomplete line (C56_lines_violated), couplings on a missing patch (C56_patches_violated) and rigid properties without point or patch (C56_rigid_violated) are dropped silently; a missing discrete master point is a null dereference when reading (C56_rigid_input_violated); reading the input again after mesh refinement doubles the weights (C56_reread_violated)."
  },
  {
   "property": "C57",
   "status": "proved",
   "theorems": [
    "Verif.Knots.C57_knots",
    "Verif.Knots.C57_valid",
    "Verif.Knots.C57_finest",
    "Verif.Knots.C57_rejects"
   ],
   "note": "Knots are modelled as rationals; they are dyadic and exact in double precision up to level 26. The loops carry a bound on their passes and are shown to end. The element next to the midpoint has twice the size the program prints (C57_finest)."
  },
  {
   "property": "C58",
   "status": "partial",
   "theorems": [
    "Verif.AnaBC.C58_exact",
    "Verif.AnaBC.C58_resolved_partial",
    "Verif.AnaBC.C58_complete_partial",
    "Verif.AnaBC.C58_resolved_violated",
    "Verif.AnaBC.C58_no_double_release",
    "Verif.AnaBC.C58_release_violated"
   ],
   "note": "C58_exact gives the complete result. Conditions of solutions given by expressions, zero codes, second codes of one kind and rotations are not resolved (C58_resolved_violated); a function parsed under the same code is leaked (C58_release_violated). No function of the analytical solution is ever deleted by the library (C58_no_double_release)."
  },
  {
   "property": "C59",
   "status": "partial",
   "theorems": [
    "Verif.LineLoad.C59_mask",
    "Verif.LineLoad.C59_once",
    "Verif.LineLoad.C59_two_elements",
    "Verif.LineLoad.C59_border_lines",
    "Verif.LineLoad.C59_input",
    "Verif.LineLoad.C59_input_violated"
   ],
   "note": "The border mask and the load of every complete line on every grid are proved exact. C59_input_violated: a line without a range is accepted and carries no load, and of several lines in the input only the last is loaded."
  },
  {
   "property": "C60",
   "status": "partial",
   "theorems": [
    "Verif.Boundary.C60_sections",
    "Verif.Boundary.C60_all",
    "Verif.Boundary.C60_sum_partial",
    "Verif.Boundary.C60_index",
    "Verif.Boundary.C60_index_violated",
    "Verif.Boundary.C60_first_tag_violated",
    "Verif.Boundary.C60_interface_total",
    "Verif.Boundary.C60_total_violated"
   ],
   "note": "The sections are the codes in ascending order, the sum and the interface total are exact. Violated: the one-based section number is used as a zero-based index (C60_index_violated), the boundary force uses the smallest code rather than the first tag (C60_first_tag_violated), nodes shared by two sections are counted twice in the total reaction (C60_total_violated)."
  },
  {
   "property": "C61",
   "status": "partial",
   "theorems": [
    "Verif.Modes.C61_violated",
    "Verif.Modes.C61_static_then_dynamic_partial"
   ],
   "note": "Fails for a static evaluation after a dynamic one (C61_violated); holds when all static evaluations precede the dynamic ones."
  },
  {
   "property": "C62",
   "status": "partial",
   "theorems": [
    "Verif.NLargs.C62_options",
    "Verif.NLargs.C62_arguments",
    "Verif.NLargs.C62_other_arguments",
    "Verif.NLargs.C62_input_partial",
    "Verif.NLargs.C62_input_violated",
    "Verif.NLargs.C62_planar",
    "Verif.NLargs.C62_mixed_basis",
    "Verif.NLargs.C62_driver",
    "Verif.NLargs.C62_integrand",
    "Verif.NLargs.C62_order_only_violated",
    "Verif.NLargs.C62_stop_time"
   ],
   "note": "The argument and input scan of the nonlinear program, integrand selection and driver selection are modelled; an option pair that is order dependent and input files that contradict the command line are recorded in the violated theorems."
  },
  {
   "property": "C63",
   "status": "proved",
   "theorems": [
    "Verif.LinIso.C63_no_memory"
   ],
   "note": "Induction over the list of earlier evaluations."
  },
  {
   "property": "C64",
   "status": "partial",
   "theorems": [
    "Verif.LinIso.C64_field_ignored_violated",
    "Verif.LinIso.C64_stiffness_partial"
   ],
   "note": "Violated when the stiffness is a spatial field (getStiffness ignores it); proved otherwise."
  },
  {
   "property": "C65",
   "status": "partial",
   "theorems": [
    "Verif.Texture.C65_dangling_violated",
    "Verif.Texture.C65_shared_violated",
    "Verif.Texture.C65_constants_partial"
   ],
   "note": "Violated: the local material object and the temporary pair copies in the find_if predicate delete the shared function objects; and later ranges share the first range's function. Proved for constant properties."
  },
  {
   "property": "C66",
   "status": "partial",
   "theorems": [
    "Verif.Modes.C66_tl",
    "Verif.Modes.C66_ul_violated"
   ],
   "note": "Holds for the total Lagrangian element; the updated Lagrangian element adds the gradient to the residual (C66_ul_violated)."
  },
  {
   "property": "C67",
   "status": "partial",
   "theorems": [
    "Verif.Finite.C67_solid_partial",
    "Verif.Finite.C67_plane_partial",
    "Verif.Finite.C67_axisymmetric_violated"
   ],
   "note": "Equality of every nodal force component for plane and solid elements, any number of nodes, any invertible deformation gradient. Violated in axisymmetry (C67_axisymmetric_violated) because of the hoop row of the total Lagrangian matrix."
  },
  {
   "property": "C68",
   "status": "partial",
   "theorems": [
    "Verif.Finite.C68_isochoric_partial",
    "Verif.Finite.C68_volume_violated"
   ],
   "note": "Proved for volume-preserving deformations (C68_isochoric_partial). Violated otherwise (C68_volume_violated): in the updated Lagrangian formulation mass and body force are scaled with the volume ratio."
  },
  {
   "property": "C69",
   "status": "partial",
   "theorems": [
    "Verif.Fbar.C69_plane_partial",
    "Verif.Fbar.C69_solid_partial",
    "Verif.Fbar.C69_regular_partial",
    "Verif.Fbar.C69_four_violated"
   ],
   "note": "Holds when the Gauss points are regularly spaced, which is proved for two and three points per direction in two and three dimensions; violated by four points per direction (C69_four_violated) since the extrapolation assumes regular points."
  },
  {
   "property": "C70",
   "status": "proved",
   "theorems": [
    "Verif.Mixed.C70_work"
   ],
   "note": "Same model as C33. Requires the averaged volume change to be nonzero at the integration points, since the code divides by it."
  },
  {
   "property": "C71",
   "status": "partial",
   "theorems": [
    "Verif.Contact.C71_fixed_partial",
    "Verif.Contact.C71_translation_violated"
   ],
   "note": "The gap is unchanged by a common translation, but the geometric contact stiffness is only added to the slave nodes, so a common translation gives a force (C71_translation_violated). For fixed bodies the stiffness is exact (C71_fixed_partial)."
  },
  {
   "property": "C72",
   "status": "proved",
   "theorems": [
    "Verif.Beam.C72_energy",
    "Verif.Beam.C72_symmetric",
    "Verif.Beam.C72_rigid",
    "Verif.Beam.C72_nonneg"
   ],
   "note": "Energy as an explicit formula, exact for all displacements; symmetry, rigid motions and sign follow."
  },
  {
   "property": "C73",
   "status": "partial",
   "theorems": [
    "Verif.Beam.C73_partial",
    "Verif.Beam.C73_violated"
   ],
   "note": "Violated when the two second moments differ: the stiffness of the first plane uses Iy, its rotary inertia Iz (C73_violated). Holds for equal second moments (C73_partial)."
  },
  {
   "property": "C74",
   "status": "proved",
   "theorems": [
    "Verif.Beam.C74_axes",
    "Verif.Beam.C74_trace",
    "Verif.Beam.C74_eccentric"
   ],
   "note": "Full property for both special transformations of a diagonal mass matrix."
  },
  {
   "property": "C75",
   "status": "partial",
   "theorems": [
    "Verif.Cable.C75_axes",
    "Verif.Cable.C75_curvature",
    "Verif.Cable.C75_found",
    "Verif.Cable.C75_degenerated_violated"
   ],
   "note": "Beam/ElasticCable.C:60-116. Orthonormality proved for all branches; every tangent of length at least 1/1000 gets axes; a zero tangent is violated: the division by its length gives not-a-numbers which pass all comparisons, so no error is reported."
  },
  {
   "property": "C76",
   "status": "partial",
   "theorems": [
    "Verif.Cable.C76_sectionForces_partial",
    "Verif.Cable.C76_violated"
   ],
   "note": "Beam/ElasticCable.C:612-668. Proved for arc-length parametrisation with curved configurations; violated otherwise: the factor 1/|dX|^2, used in the energy at lines 423-427, is missing, so results scale with the square of the parametrisation speed."
  },
  {
   "property": "C77",
   "status": "partial",
   "theorems": [
    "Verif.Plate.C77_equilibrium",
    "Verif.Plate.C77_trace",
    "Verif.Plate.C77_local_partial",
    "Verif.Plate.C77_local_violated",
    "Verif.Plate.C77_beam_violated",
    "Verif.Plate.C77_beam_partial"
   ],
   "note": "Global axes: proved for homogeneous plates in plane stress. Local systems: shear forces are multiplied by the transposed matrix while moments use the matrix itself, so they agree only for symmetric matrices (violated otherwise). One-dimensional: shear force uses the plate stiffness and the moment E*t^3/12 (violated for nu\u22600)."
  },
  {
   "property": "C78",
   "status": "proved",
   "theorems": [
    "Verif.Plate.C78_pressure",
    "Verif.Plate.C78_resultant",
    "Verif.Plate.C78_time_derivative",
    "Verif.Plate.C78_mass",
    "Verif.Plate.C78_lineLoad"
   ],
   "note": "Loads, load sums, line loads and mass for any number of nodes; quadrature enters only through the weight."
  },
  {
   "property": "C79",
   "status": "partial",
   "theorems": [
    "Verif.Plate.C79_fields_partial",
    "Verif.Plate.C79_names",
    "Verif.Plate.C79_derivatives",
    "Verif.Plate.C79_fields_violated"
   ],
   "note": "Number of values equals the announced number if third derivatives are evaluated exactly when shear forces are announced; violated with option noshear (recovery mode announces five values, three are computed)."
  },
  {
   "property": "C80",
   "status": "proved",
   "theorems": [
    "Verif.Shell.C80_local"
   ],
   "note": "Frame, B-matrix and material law for skew tangents; see Props/Shell.lean."
  },
  {
   "property": "C81",
   "status": "partial",
   "theorems": [
    "Verif.Shell.C81_local_partial",
    "Verif.Shell.C81_local_violated"
   ],
   "note": "Holds where the transformed vectors stay in the tangent plane basis used (C81_local_partial); violated for a local system whose first two axes are not tangential (C81_local_violated)."
  },
  {
   "property": "C82",
   "status": "proved",
   "theorems": [
    "Verif.Shell.C82_energy",
    "Verif.Shell.C82_projection",
    "Verif.Shell.C82_names"
   ],
   "note": "Proved for all bases, displacements and projections at one integration point (C82_*)."
  },
  {
   "property": "C83",
   "status": "proved",
   "theorems": [
    "Verif.Shell.C83_traction"
   ],
   "note": "Proved at one integration point of the edge for all bases and tractions."
  },
  {
   "property": "C84",
   "status": "partial",
   "theorems": [
    "Verif.Analytic.C84_pipe_partial",
    "Verif.Analytic.C84_plane",
    "Verif.Analytic.C84_pipe_violated"
   ],
   "note": "C84_pipe_partial: compatible for nu = 0. Violated for every nu other than 0 and 1: the constant divides by 1-nu^2 where plane strain needs 1-nu (AnalyticSolutions.C:198-200). C84_plane: axial strain is zero."
  },
  {
   "property": "C85",
   "status": "partial",
   "theorems": [
    "Verif.Boundary.C85_middle_partial",
    "Verif.Boundary.C85_middle_violated",
    "Verif.Boundary.C85_no_nodes"
   ],
   "note": "Proved for the first preprocessing (reference point starts at zero). C85_middle_violated: a second preprocessing starts from the old point and ends at an end of the boundary."
  },
  {
   "property": "C86",
   "status": "partial",
   "theorems": [
    "Verif.KLProps.C86_thickness_partial",
    "Verif.KLProps.C86_last",
    "Verif.KLProps.C86_default",
    "Verif.KLProps.C86_thickness_violated",
    "Verif.KLProps.C86_no_material_violated"
   ],
   "note": "Thickness functions are stored by property code but looked up by material index. Proved when the codes are the indices (in particular for a single material without set) and for constant thicknesses; C86_thickness_violated and C86_no_material_violated give the cases where the wrong thickness is used or memory outside the arrays is read."
  },
  {
   "property": "C87",
   "status": "partial",
   "theorems": [
    "Verif.KLProps.C87_patch",
    "Verif.KLProps.C87_input",
    "Verif.KLProps.C87_same_code_violated"
   ],
   "note": "Proved for all property lists and patches; C87_same_code_violated: two pressures with the same code, only the last acts."
  },
  {
   "property": "C88",
   "status": "partial",
   "theorems": [
    "Verif.KLProps.C88_reread_partial",
    "Verif.KLProps.C88_reread_violated",
    "Verif.KLProps.C88_clear_violated"
   ],
   "note": "Proved when the codes of materials with thickness functions are their indices; C88_reread_violated: with another code the integrand keeps using the deleted function of the first reading. C88_clear_violated: the line load is not reset when the properties are cleared."
  },
  {
   "property": "C89",
   "status": "partial",
   "theorems": [
    "Verif.PointLoads.C89_located",
    "Verif.PointLoads.C89_vector",
    "Verif.PointLoads.C89_energy",
    "Verif.PointLoads.C89_sums",
    "Verif.PointLoads.C89_gradient",
    "Verif.PointLoads.C89_shift",
    "Verif.PointLoads.C89_direction_violated",
    "Verif.PointLoads.C89_point_partial",
    "Verif.PointLoads.C89_point_violated",
    "Verif.PointLoads.C89_beam_energy",
    "Verif.PointLoads.C89_beam_vector",
    "Verif.PointLoads.C89_bar_input",
    "Verif.PointLoads.C89_bar_input_violated",
    "Verif.PointLoads.C89_bar_node",
    "Verif.PointLoads.C89_bar_again_violated",
    "Verif.PointLoads.C89_bar_vector_partial",
    "Verif.PointLoads.C89_bar_moment_violated"
   ],
   "note": "Proved for plates, shells and C1 beams: location, load vector, sums, gradient as time derivative, energy. Violated: direction 0 of a shell load writes outside the load vector (UB); for beams an unevaluable point with element loads allowed is accepted; bar/beam loads with bad input are dropped silently; a second preprocessing takes node numbers for patch numbers; moments on beam elements are accepted and write outside the vector (UB)."
  },
  {
   "property": "C90",
   "status": "partial",
   "theorems": [
    "Verif.FtnStiff.C90_plane",
    "Verif.FtnStiff.C90_solid",
    "Verif.FtnStiff.C90_plane_mixed",
    "Verif.FtnStiff.C90_solid_mixed",
    "Verif.FtnStiff.C90_symmetric",
    "Verif.FtnStiff.C90_tl_plane",
    "Verif.FtnStiff.C90_tl_solid_partial",
    "Verif.FtnStiff.C90_tl_solid_violated",
    "Verif.FtnStiff.C90_iso",
    "Verif.FtnStiff.C90_element_partial",
    "Verif.FtnStiff.C90_element_violated",
    "Verif.FtnStiff.C90_one_violated",
    "Verif.FtnStiff.C90_force",
    "Verif.FtnStiff.C90_one_partial"
   ],
   "note": "All routines proved for all inputs, except: stiff_TL3D exchanges the shear components yz and zx (violated for general matrices, proved for matrices invariant under the exchange), the element always uses the isotropic routines (violated for anisotropic matrices), and the one-dimensional branch misses the integration weight."
  },
  {
   "property": "C91",
   "status": "partial",
   "theorems": [
    "Verif.Supel.C91_link",
    "Verif.Supel.C91_bad_block",
    "Verif.Supel.C91_release_partial",
    "Verif.Supel.C91_release_violated",
    "Verif.Supel.C91_material_partial",
    "Verif.Supel.C91_material_violated",
    "Verif.Supel.C91_problem",
    "Verif.Supel.C91_blocks",
    "Verif.Supel.C91_vector_blocks"
   ],
   "note": "Links, block lists and numbering proved. Violated: with several models the stresses are evaluated by the integrand of the first model, so with its material; a model redefined under the same name is leaked."
  },
  {
   "property": "C92",
   "status": "partial",
   "theorems": [
    "Verif.Newmark.C92_saved",
    "Verif.Newmark.C92_spacing",
    "Verif.Newmark.C92_all",
    "Verif.Newmark.C92_final_partial",
    "Verif.Newmark.C92_final_violated",
    "Verif.Newmark.C92_failure",
    "Verif.Newmark.C92_status_violated",
    "Verif.Newmark.C92_restart_violated",
    "Verif.Newmark.C92_projection_partial",
    "Verif.Newmark.C92_projection_violated",
    "Verif.Newmark.C92_stop_partial",
    "Verif.Newmark.C92_stop_violated"
   ],
   "note": "Proved: numbering, choice and spacing of saved steps, restart data, end of the run at every failure, no missing projection vector in modal runs. False of the code: the final step is lost if the save interval exceeds the simulation time, added status codes are ambiguous, failing serialization is not reported, linear dynamics with projection accesses an empty vector, stop times up to one are ignored. hasReached tolerance not modelled."
  },
  {
   "property": "C93",
   "status": "partial",
   "theorems": [
    "Verif.FileNames.C93_dump_partial",
    "Verif.FileNames.C93_dump_dir_violated",
    "Verif.FileNames.C93_dump_dot_violated",
    "Verif.FileNames.C93_dump_length_violated",
    "Verif.FileNames.C93_dump_nonlinear_partial",
    "Verif.FileNames.C93_restart_partial",
    "Verif.FileNames.C93_restart_violated",
    "Verif.FileNames.C93_restart_new",
    "Verif.FileNames.C93_restart_new_violated",
    "Verif.FileNames.C93_supel"
   ],
   "note": "Proved: names for paths with one dot (linear program) or leading dots (nonlinear program), restart and superelement names, the nonlinear program never overwrites a restart file. False of the code: a leading ./ writes to the root directory, dots in directories, buffer overflow for short or missing extensions, exception for restart output without extension, restart files of the other programs are overwritten."
  },
  {
   "property": "C94",
   "status": "partial",
   "theorems": [
    "Verif.Programs.C94_driver_partial",
    "Verif.Programs.C94_arclen_violated",
    "Verif.Programs.C94_projection_partial",
    "Verif.Programs.C94_projection_violated",
    "Verif.Programs.C94_status_partial",
    "Verif.Programs.C94_shell_violated",
    "Verif.Programs.C94_static_partial",
    "Verif.Programs.C94_static_codes",
    "Verif.Programs.C94_static_violated",
    "Verif.Programs.C94_coupled_status",
    "Verif.Programs.C94_coupled_blocks",
    "Verif.Programs.C94_coupled_system",
    "Verif.Programs.C94_coupled_detach",
    "Verif.Programs.C94_coupled_close_violated",
    "Verif.Programs.C94_coupled_names_partial",
    "Verif.Programs.C94_coupled_names_violated"
   ],
   "note": "Proved: driver selection, exit status of the nonlinear, linear dynamics and linear static programs, coupled solver. False of the code: the adaptivity flag of the arc-length method is ignored, linear dynamics and multi-load-case runs with projection access an empty vector, the shell program always exits with zero, failing boundary forces, result points and HDF5 output are not reported, the VTF file is not closed on failure."
  },
  {
   "property": "C95",
   "status": "partial",
   "theorems": [
    "Verif.FDInput.C95_iso",
    "Verif.FDInput.C95_version_violated",
    "Verif.FDInput.C95_formulation",
    "Verif.FDInput.C95_plastic_partial",
    "Verif.FDInput.C95_power",
    "Verif.FDInput.C95_voce",
    "Verif.FDInput.C95_moduli_violated",
    "Verif.FDInput.C95_text_violated",
    "Verif.FDInput.C95_child_violated",
    "Verif.FDInput.C95_hardening",
    "Verif.FDInput.C95_voce_text_violated",
    "Verif.FDInput.C95_materials",
    "Verif.FDInput.C95_default_text",
    "Verif.FDInput.C95_default_xml",
    "Verif.FDInput.C95_default_violated",
    "Verif.FDInput.C95_contact_violated",
    "Verif.FDInput.C95_parameters",
    "Verif.FDInput.C95_projection"
   ],
   "note": "Proved: equality of both formats for isotropic materials, parameter positions for all yield functions (XML), material indices and properties, default materials, number of element parameters, projection check. Violations: material version ignored in total Lagrange formulations, numbers as text of the XML element ignored, other child elements fill the parameters with zeros, elastic modulus combined with a shear modulus taken as bulk modulus, two-term Voce hardening in the text format reads outside the parameters, different default materials in the two formats, no default after a failing contact definition. C95_plastic_partial needs Poisson's ratio below one half and no attributes of other yield functions."
  },
  {
   "property": "C96",
   "status": "partial",
   "theorems": [
    "Verif.SolidFields.C96_number",
    "Verif.SolidFields.C96_singular",
    "Verif.SolidFields.C96_names_partial",
    "Verif.SolidFields.C96_order_violated",
    "Verif.SolidFields.C96_strain_violated",
    "Verif.SolidFields.C96_axial_violated",
    "Verif.SolidFields.C96_failing_violated",
    "Verif.SolidFields.C96_exact",
    "Verif.SolidFields.C96_exact_violated",
    "Verif.SolidFields.C96_local_partial",
    "Verif.SolidFields.C96_local_violated",
    "Verif.SolidFields.C96_displacement_partial",
    "Verif.SolidFields.C96_displacement_violated",
    "Verif.SolidFields.C96_distinct",
    "Verif.SolidFields.C96_directions"
   ],
   "note": "Proved: number of values, names of components, von Mises value, internal variables and principal values (without internal variables together with principal values), analytical solution, displacement names, different names for the three materials, principal direction buffer. Violations: with internal variables the principal values come first in the values but last in the names (and last in the analytical solution), shear strain in plane stress named as a stress, all fields named Axial stress in one dimension, failing principal values shift internal variables, local system only used together with principal values, displacement names in axial symmetry."
  },
  {
   "property": "C97",
   "status": "partial",
   "theorems": [
    "Verif.Thermal.C97_strain",
    "Verif.Thermal.C97_parse",
    "Verif.Thermal.C97_stress_3d",
    "Verif.Thermal.C97_stress_axi",
    "Verif.Thermal.C97_stress_axi_violated",
    "Verif.Thermal.C97_stress_plane_stress",
    "Verif.Thermal.C97_stress_plane_strain_violated",
    "Verif.Thermal.C97_age_violated",
    "Verif.Thermal.C97_stress_1d",
    "Verif.Thermal.C97_load",
    "Verif.Thermal.C97_residual",
    "Verif.Thermal.C97_free"
   ],
   "note": "Proved: thermal strain, temperature input, stresses in one and three dimensions, plane stress and axial symmetry, load vector, residual, equilibrium of the free expansion for elements with any number of integration points. Violations: in plane strain the thermal strain is not subtracted in the transverse direction, in-plane stresses miss lambda*epsT and the transverse one 2*nu*lambda*epsT; the transverse correction uses the stiffness at age zero; in axial symmetry with a material set to plane strain the hoop stress is corrected twice."
  },
  {
   "property": "C98",
   "status": "partial",
   "theorems": [
    "Verif.SolidLoads.C98_used",
    "Verif.SolidLoads.C98_traction_partial",
    "Verif.SolidLoads.C98_traction_violated",
    "Verif.SolidLoads.C98_again_violated",
    "Verif.SolidLoads.C98_shell",
    "Verif.SolidLoads.C98_missing",
    "Verif.SolidLoads.C98_bodyforce",
    "Verif.SolidLoads.C98_loads_partial",
    "Verif.SolidLoads.C98_loads_violated",
    "Verif.SolidLoads.C98_shell_loads_partial",
    "Verif.SolidLoads.C98_shell_loads_violated",
    "Verif.SolidLoads.C98_material",
    "Verif.SolidLoads.C98_material_violated",
    "Verif.SolidLoads.C98_isotropic",
    "Verif.SolidLoads.C98_mat_patches",
    "Verif.SolidLoads.C98_mat_input",
    "Verif.SolidLoads.C98_pressure_partial",
    "Verif.SolidLoads.C98_pressure_violated",
    "Verif.SolidLoads.C98_coded_pressure",
    "Verif.SolidLoads.C98_gravity_partial",
    "Verif.SolidLoads.C98_gravity_violated",
    "Verif.SolidLoads.C98_master"
   ],
   "note": "Proved: exact characterisation of the traction used on each boundary; own tractions in plates and shells; solids only with implicit before explicit tractions in the first assembly; body forces; load detection for constant density; materials by code and by patch; pressures by face (one section) and by code; gravity; master points. Violations: an explicit traction stays active and replaces pressures on later boundaries and in later assemblies; second section of face pressures replaces those of the first; no material; density zero in the origin hides gravity loads; gravity vector with too few components."
  },
  {
   "property": "C99",
   "status": "partial",
   "theorems": [
    "Verif.BeamInput.C99_pipe",
    "Verif.BeamInput.C99_disk",
    "Verif.BeamInput.C99_pipe_violated",
    "Verif.BeamInput.C99_no_pipe",
    "Verif.BeamInput.C99_box",
    "Verif.BeamInput.C99_box_defaults",
    "Verif.BeamInput.C99_rectangle",
    "Verif.BeamInput.C99_torsion_bound",
    "Verif.BeamInput.C99_box_exchange",
    "Verif.BeamInput.C99_box_violated",
    "Verif.BeamInput.C99_pipe_section",
    "Verif.BeamInput.C99_box_section",
    "Verif.BeamInput.C99_override",
    "Verif.BeamInput.C99_default",
    "Verif.BeamInput.C99_polar_partial",
    "Verif.BeamInput.C99_polar_violated",
    "Verif.BeamInput.C99_constant",
    "Verif.BeamInput.C99_constant_violated",
    "Verif.BeamInput.C99_csv_line",
    "Verif.BeamInput.C99_csv_units",
    "Verif.BeamInput.C99_csv_table",
    "Verif.BeamInput.C99_csv_blank_violated",
    "Verif.BeamInput.C99_csv_empty_field_violated",
    "Verif.BeamInput.C99_kind",
    "Verif.BeamInput.C99_bar_partial",
    "Verif.BeamInput.C99_cable",
    "Verif.BeamInput.C99_bar_mass_violated",
    "Verif.BeamInput.C99_bar_area_violated",
    "Verif.BeamInput.C99_cable_violated",
    "Verif.BeamInput.C99_beam_material",
    "Verif.BeamInput.C99_beam_material_violated",
    "Verif.BeamInput.C99_sections",
    "Verif.BeamInput.C99_tags",
    "Verif.BeamInput.C99_rotations",
    "Verif.BeamInput.C99_node_rotation"
   ],
   "note": "Integrals are Mathlib interval integrals; text of a table is a list of characters, number conversion a parameter. Violations: walls thicker than the radius leave a hole (area zero for t = 2R); polar moment and torsional constant do not follow Iy and Iz given by attributes, or by a list of two values; a line with fewer than three fields in a table aborts the program (substr of an empty unit); empty fields shift the columns; the area attribute is ignored for the mass if EA is given; a cable element after a bar, or of another type, uses a bar as a cable; invalid Poisson's ratios are ignored."
  },
  {
   "property": "C100",
   "status": "partial",
   "theorems": [
    "Verif.LinDriver.C100_select",
    "Verif.LinDriver.C100_recovery_file_partial",
    "Verif.LinDriver.C100_recovery_file_violated",
    "Verif.LinDriver.C100_retained_partial",
    "Verif.LinDriver.C100_retained_violated",
    "Verif.LinDriver.C100_recovery_partial",
    "Verif.LinDriver.C100_recovery_violated",
    "Verif.LinDriver.C100_reactions",
    "Verif.LinDriver.C100_reaction",
    "Verif.LinDriver.C100_solve",
    "Verif.LinDriver.C100_formats",
    "Verif.LinDriver.C100_pipe",
    "Verif.LinDriver.C100_unknown",
    "Verif.LinDriver.C100_first",
    "Verif.LinDriver.C100_text",
    "Verif.LinDriver.C100_anasol_violated"
   ],
   "note": "IFEM assumptions: getTopItemNodes appends nodes, topology sets are sets, condensation writes the recovery matrix to the file. Violations: the recovery file is misnamed for names without extension below a directory with a dot; nodes on several retained items are retained several times, also after a second preprocessing; the recovery matrix in memory is never replaced; analytical solutions before the material and missing parameters use null pointers. The expression format of the text input is not modelled."
  },
  {
   "property": "C101",
   "status": "partial",
   "theorems": [
    "Verif.LinDriver.C101_restart_partial",
    "Verif.LinDriver.C101_missing",
    "Verif.LinDriver.C101_restart_violated",
    "Verif.LinDriver.C101_save_partial",
    "Verif.LinDriver.C101_save_violated",
    "Verif.LinDriver.C101_advance"
   ],
   "note": "IFEM assumptions: solution vectors are stored under the name of the solver and their number. Violations: the external energy is stored under a fixed name, such that two elasticity solvers overwrite each other; a save increment of zero is divided by."
  },
  {
   "property": "C102",
   "status": "partial",
   "theorems": [
    "Verif.NormUL.C102_energy",
    "Verif.NormUL.C102_stress",
    "Verif.NormUL.C102_split",
    "Verif.NormUL.C102_von_mises_partial",
    "Verif.NormUL.C102_plane_stress_violated",
    "Verif.NormUL.C102_mixed_volume",
    "Verif.NormUL.C102_labels_partial",
    "Verif.NormUL.C102_labels_violated",
    "Verif.NormUL.C102_compute",
    "Verif.NormUL.C102_flag"
   ],
   "note": "Partial: von Mises and pressure norms for three normal stresses only; labels for the updated Lagrange norms. Violations: in plane stress the pressure is half of the trace, though printed as a third; for total Lagrange models the volume is printed as stress norm, and with an analytical solution the exact energy as stress norm, the error as pressure norm, the volume as deviatoric norm. Square roots of the printed values are not modelled."
  },
  {
   "property": "C103",
   "status": "partial",
   "theorems": [
    "Verif.AnaSolid.C103_types_partial",
    "Verif.AnaSolid.C103_second_code_violated",
    "Verif.AnaSolid.C103_displacement",
    "Verif.AnaSolid.C103_traction",
    "Verif.AnaSolid.C103_none",
    "Verif.AnaSolid.C103_twice",
    "Verif.AnaSolid.C103_release",
    "Verif.AnaSolid.C103_leak_violated",
    "Verif.AnaSolid.C103_clear"
   ],
   "note": "Partial: displacements on the boundaries with the first code only, codes not zero. Violations: boundaries with a second code for analytical displacements get no condition at all (each topology set has its own code); a function of the input with the same code is overwritten and never deleted. The numbering of codes by the library is not modelled."
  },
  {
   "property": "C104",
   "status": "partial",
   "theorems": [
    "Verif.NLDriver.C104_no_refinement",
    "Verif.NLDriver.C104_refine_ok",
    "Verif.NLDriver.C104_transfer_partial",
    "Verif.NLDriver.C104_transfer_violated",
    "Verif.NLDriver.C104_values_violated",
    "Verif.NLDriver.C104_options",
    "Verif.NLDriver.C104_initial",
    "Verif.NLDriver.C104_extreme_partial",
    "Verif.NLDriver.C104_extreme_violated",
    "Verif.NLDriver.C104_kept"
   ],
   "note": "Partial: transfer for one patch with the equations of the model; extreme values of linear and updated Lagrangian formulations. Violations: for several patches the vectors of the patches replace those of the model, the assembled ones are discarded; in total Lagrangian formulations the extreme values are never reset and accumulate over all steps. Refinement and interpolation by the library are inputs."
  },
  {
   "property": "C105",
   "status": "partial",
   "theorems": [
    "Verif.ContactInput.C105_master_partial",
    "Verif.ContactInput.C105_two_sets_violated",
    "Verif.ContactInput.C105_connected",
    "Verif.ContactInput.C105_fix_partial",
    "Verif.ContactInput.C105_move_partial",
    "Verif.ContactInput.C105_order_violated",
    "Verif.ContactInput.C105_points",
    "Verif.ContactInput.C105_radius_partial",
    "Verif.ContactInput.C105_radius_violated",
    "Verif.ContactInput.C105_method",
    "Verif.ContactInput.C105_integrands",
    "Verif.ContactInput.C105_masters",
    "Verif.ContactInput.C105_update_partial",
    "Verif.ContactInput.C105_start",
    "Verif.ContactInput.C105_sphere_violated",
    "Verif.ContactInput.C105_reaction",
    "Verif.ContactInput.C105_name_partial",
    "Verif.ContactInput.C105_name_violated",
    "Verif.ContactInput.C105_prescribed",
    "Verif.ContactInput.C105_kinds"
   ],
   "note": "Proved: points, connection of one slave set (all patches share the same new nodes), fixed and prescribed components reach exactly the master nodes of the patches in contact, radius when given, formulation, integrands, positions for cylinders, planes and spheres in space, reactions, prescribed values. Violated: a body without radius gets that of the previous tag; two slave sets get separate master nodes and the body follows the last one only; a condition before the slave set, or a movement in several directions, has no effect; spheres in plane models read the displacements of other nodes; the tenth body is named \"Rigid Body :\"."
  },
  {
   "property": "C106",
   "status": "partial",
   "theorems": [
    "Verif.ThinInput.C106_region_partial",
    "Verif.ThinInput.C106_text_region_partial",
    "Verif.ThinInput.C106_line",
    "Verif.ThinInput.C106_short_line_violated",
    "Verif.ThinInput.C106_default",
    "Verif.ThinInput.C106_thickness_violated",
    "Verif.ThinInput.C106_formats",
    "Verif.ThinInput.C106_density_violated",
    "Verif.ThinInput.C106_no_material_violated",
    "Verif.ThinInput.C106_loads_partial",
    "Verif.ThinInput.C106_loads_violated",
    "Verif.ThinInput.C106_load_tags",
    "Verif.ThinInput.C106_pressure_partial",
    "Verif.ThinInput.C106_pressure_violated"
   ],
   "note": "Proved: material and non-zero thickness of each region for any history (tags and text), default material, values of lines, loads of tags and of one section, pressures of text input. Violated: a thickness of zero or omitted takes that of the region before; short lines convert a null pointer (UB); without materials memory outside the arrays is read (UB); the default density differs between the formats; a second section of point loads replaces the first; a pressure tag without set and code is dropped silently."
  },
  {
   "property": "C107",
   "status": "partial",
   "theorems": [
    "Verif.ThinInput.C107_tag_partial",
    "Verif.ThinInput.C107_order_violated",
    "Verif.ThinInput.C107_text_partial",
    "Verif.ThinInput.C107_edge_violated",
    "Verif.ThinInput.C107_short_violated"
   ],
   "note": "Proved with a material defined before: kind of load, parameters and plate stiffness, first definition kept, agreement of the formats. Violated: solution before the material (UB); a position on an edge is a point load in text and a pressure in a tag; incomplete text lines (UB)."
  },
  {
   "property": "C108",
   "status": "partial",
   "theorems": [
    "Verif.BeamElem.C108_static_partial",
    "Verif.BeamElem.C108_weight",
    "Verif.BeamElem.C108_tangent",
    "Verif.BeamElem.C108_lineload_violated",
    "Verif.BeamElem.C108_eccentric_violated",
    "Verif.BeamElem.C108_small_violated",
    "Verif.BeamElem.C108_undeformed",
    "Verif.BeamElem.C108_length",
    "Verif.BeamElem.C108_norms",
    "Verif.BeamElem.C108_error_zero",
    "Verif.BeamElem.C108_fields"
   ],
   "note": "Proved in exact arithmetic: virtual work of the stiffness and the residual for all cross sections, orientations and eccentricities in linear statics (C108_static_partial), weight for orthonormal axes (C108_weight), tangent and buckling matrices without eccentricity (C108_tangent), refusal of elements without length, norms. Findings: distributed loads are read but never applied (C108_lineload_violated), eccentric beams are refused with displacements when only forces or a geometric stiffness are wanted (C108_eccentric_violated), displacements below 1e-16 of the length give no internal forces (C108_small_violated)."
  },
  {
   "property": "C109",
   "status": "partial",
   "theorems": [
    "Verif.NormPrint.C109_solid",
    "Verif.NormPrint.C109_plate",
    "Verif.NormPrint.C109_l2",
    "Verif.NormPrint.C109_main",
    "Verif.NormPrint.C109_main_plate",
    "Verif.NormPrint.C109_main_beam",
    "Verif.NormPrint.C109_shell",
    "Verif.NormPrint.C109_analytical",
    "Verif.NormPrint.C109_volume",
    "Verif.NormPrint.C109_reference_partial",
    "Verif.NormPrint.C109_reference_violated",
    "Verif.NormPrint.C109_dual_row",
    "Verif.NormPrint.C109_dual_partial",
    "Verif.NormPrint.C109_dual_violated"
   ],
   "note": "Proved for the layouts of C14, C15 and C82: all printed lines of solids with any number of section forces, plates, beams and shells. The position of section forces given by IFEM (getVCPindex) is an assumption. Findings: the norms of the projected analytical solution of plates are never evaluated (C109_reference_violated); the printed estimate of the error of a section force is smaller than the bound it stands for (C109_dual_violated), it is one after multiplication with the square root of the number of elements (C109_dual_partial)."
  },
  {
   "property": "C110",
   "status": "partial",
   "theorems": [
    "Verif.Options.C110_nonlinear",
    "Verif.Options.C110_shell",
    "Verif.Options.C110_usage",
    "Verif.Options.C110_file_violated",
    "Verif.Options.C110_precision_partial",
    "Verif.Options.C110_precision_violated",
    "Verif.Options.C110_adaptive",
    "Verif.Options.C110_fields",
    "Verif.Options.C110_restart_partial",
    "Verif.Options.C110_restart_violated",
    "Verif.Options.C110_dump_partial",
    "Verif.Options.C110_dump_violated"
   ],
   "note": "Proved for all well-formed command lines (a specification lists options and their values; library options are given functions with the assumption that their effect depends on their own values). The parts that fail are proved as negations: an input file starting with a digit behind -ignore, a misspelled option in front of the input file, -outPrec 3 in dynamic simulations, restart and dump files for input files without a usual extension (exception, memory overwritten, wrong directory)."
  },
  {
   "property": "C111",
   "status": "partial",
   "theorems": [
    "Verif.Contact.C111_assembly",
    "Verif.Contact.C111_total",
    "Verif.Contact.C111_uniform",
    "Verif.Contact.C111_balance",
    "Verif.Contact.C111_forces",
    "Verif.Contact.C111_tangent",
    "Verif.Contact.C111_no_area",
    "Verif.Contact.C111_numbering_violated",
    "Verif.Contact.C111_status",
    "Verif.Contact.C111_closest",
    "Verif.Contact.C111_count_partial"
   ],
   "note": "Forces, balance, areas and gaps are proved for meshes where all slave nodes are numbered below the master nodes; otherwise the code writes outside of its vectors (C111_numbering_violated). The consistency of the tangent is for gaps which are linear in the displacements; the change of the normal and of the interpolation with the displacements is not in the code either. The printed count is proved except for a repeated first iteration, where C35_active_violated applies."
  },
  {
   "property": "C112",
   "status": "partial",
   "theorems": [
    "Verif.Finite.C112_total",
    "Verif.Finite.C112_updated_partial",
    "Verif.Finite.C112_linear",
    "Verif.Finite.C112_rotation_violated",
    "Verif.Finite.C112_hoop_violated",
    "Verif.Finite.C112_residual_violated"
   ],
   "note": "C112_total: complete for the total Lagrangian formulation in two and three dimensions, any list of points and any material with S = 0 for E = 0 and tangent dS/dE; C112_linear gives such materials. C112_updated_partial: updated Lagrangian formulation with Cauchy stresses and pushed-forward tangent, at points which are strained or not displaced; C112_rotation_violated: wrong matrix for an element rotated without strain (gradients not pushed forward when E.isZero()). C112_hoop_violated: an axisymmetric ring under radial expansion has no internal forces in either formulation. C112_residual_violated: stresses in the unstrained state are ignored, the forces jump there. The tolerance of the strain test is zero or exceeded in the positive theorems."
  },
  {
   "property": "C113",
   "status": "partial",
   "theorems": [
    "Verif.Finite.C113_tangent_partial",
    "Verif.Finite.C113_forces",
    "Verif.Finite.C113_uniform",
    "Verif.Finite.C113_volume",
    "Verif.Finite.C113_unstrained_violated",
    "Verif.Finite.C113_sample_axi",
    "Verif.Finite.C113_forces_axi",
    "Verif.Finite.C113_hoop_violated",
    "Verif.Finite.C113_matrix_axi",
    "Verif.Finite.C113_field_axi"
   ],
   "note": "C113_forces: virtual work of the forces in two and three dimensions for any number of sampling and integration points; C113_volume and C113_uniform: volume ratio of the modified gradient. C113_tangent_partial: the element matrix is the derivative of the forces at points strained beyond the tolerance, for materials with the Truesdell rate as tangent; in three dimensions only where the stresses xy and xz agree, because of the wrong entry of C31_solid_violated. C113_sample_axi, C113_forces_axi, C113_matrix_axi and C113_field_axi: sampling, volumetric field, forces and matrix in axisymmetry. C113_unstrained_violated: an integration point without own strains contributes no forces although the sampled volume ratio gives it stresses. C113_hoop_violated: no forces for a radially expanded ring."
  },
  {
   "property": "C114",
   "status": "partial",
   "theorems": [
    "Verif.Finite.C114_tangent_defect",
    "Verif.Finite.C114_tangent_partial",
    "Verif.Finite.C114_forces",
    "Verif.Finite.C114_potential",
    "Verif.Finite.C114_symmetric",
    "Verif.Finite.C114_hoop_violated"
   ],
   "note": "C114_tangent_partial holds for all plane and three-dimensional elements, and for axisymmetric ones whose hoop stresses are not compressive; C114_tangent_defect gives the difference in general. C114_hoop_violated: the geometric stiffness of compressive hoop stresses is left out (formKG adds it only if it is positive), so the matrix of a radially compressed ring is not the derivative of its forces. Forces, potential and symmetry are proved without that restriction. Stresses between zero and the tolerance of isZero are excluded by hypothesis."
  },
  {
   "property": "C115",
   "status": "partial",
   "theorems": [
    "Verif.Finite.C115_tangent_defect",
    "Verif.Finite.C115_tangent_partial",
    "Verif.Finite.C115_forces",
    "Verif.Finite.C115_potential",
    "Verif.Finite.C115_symmetric",
    "Verif.Finite.C115_hoop_violated",
    "Verif.Finite.C115_unstrained_violated"
   ],
   "note": "C115_tangent_partial holds for all plane and three-dimensional elements, and for axisymmetric ones whose hoop stresses are not compressive; C115_tangent_defect gives the difference in general. Two violations: C115_hoop_violated (the geometric stiffness of compressive hoop stresses is left out), C115_unstrained_violated (at points without strains, e.g. in the initial configuration, all three residuals are skipped although the volume change and the pressure may differ from the volume ratio and the mean stress; the matrix is still added). The theorems assume in-plane strains above the tolerance at each point. Symmetry of the material tangent is needed since the last column of the projected tangent is used for both coupling blocks."
  },
  {
   "property": "C116",
   "status": "partial",
   "theorems": [
    "Verif.BouForce.C116_resultants",
    "Verif.BouForce.C116_no_torque",
    "Verif.BouForce.C116_nodal",
    "Verif.BouForce.C116_balance",
    "Verif.BouForce.C116_uniform",
    "Verif.BouForce.C116_loads_partial",
    "Verif.BouForce.C116_axisymmetric_violated",
    "Verif.BouForce.C116_strain_violated",
    "Verif.BouForce.C116_sections"
   ],
   "note": "Resultants, torques, nodal forces, their balance and the equilibrium of uniform stress hold in full generality. The agreement of nodal forces with the nodal loads holds without axisymmetry (C116_loads_partial); with it the factor 2*pi*r is missing (C116_axisymmetric_violated). With strain output the forces are those of the strains (C116_strain_violated). Points where the stress recovery fails are not modelled; the code ignores that failure."
  },
  {
   "property": "C117",
   "status": "partial",
   "theorems": [
    "Verif.Finite.C117_mixed_norms",
    "Verif.Finite.C117_mixed_dependent",
    "Verif.Finite.C117_mixed_rate",
    "Verif.Finite.C117_triple_norms",
    "Verif.Finite.C117_triple_equilibrium",
    "Verif.Finite.C117_fbar_norms",
    "Verif.Finite.C117_fbar_axi",
    "Verif.Finite.C117_fbar_rate",
    "Verif.Finite.C117_fbar_violated"
   ],
   "note": "C117_mixed_norms, C117_triple_norms, C117_fbar_norms and C117_fbar_axi give the norms; C117_mixed_rate, C117_triple_equilibrium and C117_fbar_rate relate the energy to the forces. Violated (C117_fbar_violated): the energy of an F-bar element is no potential of its forces; in a square with the volume change sampled in the centre the energy changes by 12 w mu a^2/(1-a^2)^2 while the forces do the work 8 w mu a^2. The external energy of boundary tractions is not included here."
  },
  {
   "property": "C118",
   "status": "partial",
   "theorems": [
    "Verif.Plastic.C118_mises",
    "Verif.Plastic.C118_voce",
    "Verif.Plastic.C118_curve",
    "Verif.Plastic.C118_elastic",
    "Verif.Plastic.C118_virgin",
    "Verif.Plastic.C118_linear",
    "Verif.Plastic.C118_drucker",
    "Verif.Plastic.C118_objective",
    "Verif.Plastic.C118_objective_history",
    "Verif.Plastic.C118_axes_violated"
   ],
   "note": "Proved: elastic steps for every criterion; plastic steps for von Mises with saturating hardening, for two saturating terms and for concave hardening curves (the iteration moves monotonically along the radial direction, never passes the yield surface, and the result solves the implicit equations); exact closed form for linear hardening and for Drucker-Prager on the side of the cone; objectivity for every criterion and every history. Violated for kinematic hardening (C118_axes_violated): plastic strains are stored in the order of the sorted principal values, so the back stress moves to other axes when the order changes on load reversal. Not proved: that 49 iterations always suffice for saturating hardening (non-convergence is reported then), returns to the tip of the Drucker-Prager cone, the power law criterion (its slope at zero plastic strain is wrong, C22), the Lode angle criterion (never yields, C22). Noted: the residual of the back stress equation enters the right-hand side with the wrong sign, without effect because it vanishes at all iterates of the criteria above; zero strains with a criterion exceeded give not-a-number; in iteration zero non-convergence is not reported."
  },
  {
   "property": "C119",
   "status": "proved",
   "theorems": [
    "Verif.Plastic.C119_elastic",
    "Verif.Plastic.C119_linear",
    "Verif.Plastic.C119_drucker",
    "Verif.Plastic.C119_symmetric"
   ],
   "note": "Proved for elastic evaluations (all criteria), linear hardening (von Mises) and Drucker-Prager, and symmetry for all. Not covered: saturating and tabulated hardening, where the matrix is evaluated at the last iterate and so is the exact derivative only up to the tolerance of the local iteration; principal stretches that differ by less than 1e-8 without being equal; with kinematic hardening, coinciding principal stretches (there the stress update itself depends on the axes chosen, see C118). If the yield limit is exceeded by less than 1e-9 of the initial yield stress, the matrix is evaluated at the trial state."
  },
  {
   "property": "C120",
   "status": "partial",
   "theorems": [
    "Verif.Plastic.C120_values",
    "Verif.Plastic.C120_analysis",
    "Verif.Plastic.C120_integration",
    "Verif.Plastic.C120_diverged",
    "Verif.Plastic.C120_missing",
    "Verif.Plastic.C120_created",
    "Verif.Plastic.C120_resize",
    "Verif.Plastic.C120_start",
    "Verif.Plastic.C120_noparam",
    "Verif.Plastic.C120_mean",
    "Verif.Plastic.C120_lode",
    "Verif.Plastic.C120_sets_violated"
   ],
   "note": "C120 holds as long as all result evaluations use the same set of points. It is violated for different sets (C120_sets_violated): the k-th points of all sets share one history, so that an undeformed point can be reported with the plastic strain of a point of another set."
  },
  {
   "property": "C121",
   "status": "partial",
   "theorems": [
    "Verif.Finite.C121_updated",
    "Verif.Finite.C121_linear",
    "Verif.Finite.C121_total_partial",
    "Verif.Finite.C121_total_violated",
    "Verif.Finite.C121_plastic",
    "Verif.Finite.C121_fbar_partial",
    "Verif.Finite.C121_fbar_violated",
    "Verif.Finite.C121_old_partial",
    "Verif.Finite.C121_old_violated",
    "Verif.Finite.C121_old_stress",
    "Verif.Finite.C121_size",
    "Verif.Finite.C121_initial"
   ],
   "note": "Proved for updated Lagrangian elements with every material whose stress the element uses. Total Lagrangian elements report second Piola-Kirchhoff stresses (C121_total_partial), which are not in balance as Cauchy stresses (C121_total_violated). F-bar elements integrate the stresses of the scaled deformation gradient but report those of the unscaled one; these agree only where the sampled volume ratio equals the local one. The tensorial element announces more values than it reports with principal values and in plane strain, where the names are shifted. The mixed elements are not treated here."
  },
  {
   "property": "C122",
   "status": "proved",
   "theorems": [
    "Verif.Finite.C122_neohooke",
    "Verif.Finite.C122_total_balance",
    "Verif.Finite.C122_total_turn",
    "Verif.Finite.C122_total_rigid",
    "Verif.Finite.C122_total_stiffness",
    "Verif.Finite.C122_updated_balance",
    "Verif.Finite.C122_updated_turn",
    "Verif.Finite.C122_linear_objective",
    "Verif.Finite.C122_updated_rigid",
    "Verif.Finite.C122_fbar_balance",
    "Verif.Finite.C122_fbar_turn"
   ],
   "note": "Linear materials and, in three dimensions, neo-Hookean materials (C122_neohooke) are shown to be objective. The exception to a consistent stiffness in rotations of updated Lagrangian elements is C112_rotation_violated. Axial symmetry is not included."
  },
  {
   "property": "C123",
   "status": "partial",
   "theorems": [
    "Verif.Finite.C123_updated_norms",
    "Verif.Finite.C123_updated_potential",
    "Verif.Finite.C123_updated_linear",
    "Verif.Finite.C123_total_partial",
    "Verif.Finite.C123_total_violated",
    "Verif.Finite.C123_neohooke"
   ],
   "note": "Updated Lagrangian elements: proved for all materials with a strain energy function, with the linear and the neo-Hookean materials (three dimensions) as cases. Violated for total Lagrangian elements, whose reported energy is twice the potential of the forces (C123_total_violated); that half of it is the potential is C123_total_partial."
  },
  {
   "property": "C124",
   "status": "partial",
   "theorems": [
    "Verif.MaxPrint.C124_component",
    "Verif.MaxPrint.C124_all",
    "Verif.MaxPrint.C124_selected",
    "Verif.MaxPrint.C124_linear",
    "Verif.MaxPrint.C124_step",
    "Verif.MaxPrint.C124_clear",
    "Verif.MaxPrint.C124_reported_partial",
    "Verif.MaxPrint.C124_nothing_violated",
    "Verif.MaxPrint.C124_input_violated",
    "Verif.MaxPrint.C124_unsaved_violated",
    "Verif.MaxPrint.C124_early_violated"
   ],
   "note": "The lines printed for given extreme values are proved in general. Reports after a step: proved when the results are visualized and saved in the step. Violated: no report without visualization or projection (C124_nothing_violated, C124_input_violated); undefined behaviour in steps that are not saved, with visualization and without projection (C124_unsaved_violated); variables of a material given after the request are missing (C124_early_violated). Wrong names with principal stresses are C96_order_violated, total Lagrangian elements C104_extreme_violated."
  },
  {
   "property": "C125",
   "status": "partial",
   "theorems": [
    "Verif.Dual.C125_functions",
    "Verif.Dual.C125_replace",
    "Verif.Dual.C125_functions_violated",
    "Verif.Dual.C125_gather",
    "Verif.Dual.C125_missing",
    "Verif.Dual.C125_load_partial",
    "Verif.Dual.C125_outside_partial",
    "Verif.Dual.C125_none",
    "Verif.Dual.C125_outside_violated",
    "Verif.Dual.C125_outside_case_violated",
    "Verif.Dual.C125_small_violated",
    "Verif.Dual.C125_quantity_partial",
    "Verif.Dual.C125_adjoint_partial",
    "Verif.Dual.C125_mean",
    "Verif.Dual.C125_hoop_violated"
   ],
   "note": "Proved: registration of functions, nodal values of the elements, dual load for functions with strains above the tolerance, reported value as work of the nodal forces, adjoint relation without temperature, mean stress. Violations: a function that is not a vector function removes all others but leaves the number of vectors (C125_functions_violated); elements outside the domain get the load of the present solution when there is one (C125_outside_violated); strains below 1e-16 give no load (C125_small_violated); in axial symmetry with temperature and a material set to plane strain the reported value is not the work (C125_hoop_violated). When strains are reported instead of stresses see C14_strain_functional_violated."
  },
  {
   "property": "C126",
   "status": "partial",
   "theorems": [
    "Verif.Buffers.C126_reuse_partial",
    "Verif.Buffers.C126_dynamic",
    "Verif.Buffers.C126_steps",
    "Verif.Buffers.C126_stiffness_violated",
    "Verif.Buffers.C126_mass_violated"
   ],
   "note": "Proved for all histories where the requests for reuse come in modes with both matrices, or none of them. Violations: in modes with a stiffness but no mass matrix a reuse writes outside the container (C126_stiffness_violated), in the mass-only mode the matrices are zero (C126_mass_violated), as the mass matrix is restored under the condition of the stiffness matrix."
  },
  {
   "property": "C127",
   "status": "proved",
   "theorems": [
    "Verif.Finite.C127_modes_balance",
    "Verif.Finite.C127_modes_turn",
    "Verif.Finite.C127_modes_rigid",
    "Verif.Finite.C127_fields_balance",
    "Verif.Finite.C127_fields_turn"
   ],
   "note": "Elements without axial symmetry. In elements with pressure modes, points whose stresses are all below the tolerance are assumed to have no stresses (the code leaves their mean stress out); elements with three fields are assumed to be strained beyond the tolerance, since without strains the code skips all forces (C115_unstrained_violated). Rounding is not modelled."
  },
  {
   "property": "C128",
   "status": "proved",
   "theorems": [
    "Verif.Finite.C128_linear",
    "Verif.Finite.C128_total",
    "Verif.Finite.C128_updated",
    "Verif.Finite.C128_fbar",
    "Verif.Finite.C128_modes",
    "Verif.Finite.C128_fields",
    "Verif.Finite.C128_inner",
    "Verif.Finite.C128_agree"
   ],
   "note": "Exact arithmetic; isoparametric means that the gradients of the basis functions sum to zero and reproduce the coordinates. The total and updated Lagrangian and three-field statements take a strain above the tolerance below which the code skips the stresses. Axisymmetric elements and linear elasticity with initial strains are not included."
  },
  {
   "property": "C129",
   "status": "proved",
   "theorems": [
    "Verif.Shell.C129_shell_balance",
    "Verif.Shell.C129_shell_linear",
    "Verif.Shell.C129_shell_turn",
    "Verif.Bar.C129_bar_turn",
    "Verif.Cable.C129_cable_balance",
    "Verif.Cable.C129_cable_straight",
    "Verif.Cable.C129_cable_turn",
    "Verif.Plate.C129_plate"
   ],
   "note": "The theorems for shells and plates are per integration point, those for bars and cables per element and per integration point; basis functions are those of the library, with the properties stated in the hypotheses."
  },
  {
   "property": "C130",
   "status": "partial",
   "theorems": [
    "Verif.BeamModel.C130_functions",
    "Verif.BeamModel.C130_section",
    "Verif.BeamModel.C130_table",
    "Verif.BeamModel.C130_functions_violated",
    "Verif.BeamModel.C130_beam",
    "Verif.BeamModel.C130_rejected",
    "Verif.BeamModel.C130_load_violated",
    "Verif.BeamModel.C130_dropped_violated",
    "Verif.BeamModel.C130_default",
    "Verif.BeamModel.C130_planar_violated",
    "Verif.BeamModel.C130_twist",
    "Verif.BeamModel.C130_generated",
    "Verif.BeamModel.C130_moment"
   ],
   "note": "Violated: a line load or distributed moment without content dereferences a null pointer; loads without direction or outside of the patch are dropped silently; a file that has the name of the first property tag is read in place of the property functions; a planar bar model accepts loads in the third direction. Proved for all other inputs."
  },
  {
   "property": "C131",
   "status": "partial",
   "theorems": [
    "Verif.SolidInput.C131_constants",
    "Verif.SolidInput.C131_material_partial",
    "Verif.SolidInput.C131_functions_violated",
    "Verif.SolidInput.C131_rejected_violated",
    "Verif.SolidInput.C131_solid",
    "Verif.SolidInput.C131_materials",
    "Verif.SolidInput.C131_domain",
    "Verif.SolidInput.C131_reread_partial",
    "Verif.SolidInput.C131_reread_violated",
    "Verif.SolidInput.C131_bodyforce_violated",
    "Verif.SolidInput.C131_local_violated",
    "Verif.SolidInput.C131_local"
   ],
   "note": "The function parser in LinIsotropic::parse captures the first child by value, so all property functions of a material are read from its first child (C131_functions_violated, C131_rejected_violated); proved for materials with at most one function. The static plane strain option changes the first materials on re-reading (C131_reread_violated); body forces without code and unknown local systems are ignored silently."
  },
  {
   "property": "C132",
   "status": "proved",
   "theorems": [
    "Verif.Struct.C132_virtual_work",
    "Verif.Struct.C132_balance",
    "Verif.Struct.C132_clapeyron",
    "Verif.Struct.C132_reciprocity",
    "Verif.Struct.C132_minimum",
    "Verif.Struct.C132_unique_strains",
    "Verif.Struct.C132_exists",
    "Verif.Struct.C132_reported",
    "Verif.Struct.C132_large"
   ],
   "note": "Assembly, solution and extraction of reactions are IFEM library code: modelled as the direct stiffness method and exact solution of the equations of the free degrees of freedom (constraint equations and rounding are not modelled). The theorem on large deformations takes the assembled forces of the total Lagrangian element; other formulations follow with the same assembly lemma from C122 and C127."
  },
  {
   "property": "C133",
   "status": "partial",
   "theorems": [
    "Verif.Frame.C133_virtual_work",
    "Verif.Frame.C133_balance_partial",
    "Verif.Frame.C133_reciprocity",
    "Verif.Frame.C133_exists_partial",
    "Verif.Frame.C133_weight",
    "Verif.Frame.C133_eccentric_violated"
   ],
   "note": "Full property refuted for members with different eccentricities at their ends (C133_eccentric_violated): the length and axes of the member are taken between the nodes (Beam/ElasticBeam.C:519 and :268-283), not between the eccentric ends, so the end forces are not in equilibrium. Balance and uniqueness are proved for equal eccentricities; virtual work, reciprocity and weight for all. Sections are those at the integration point; the solution of the linear system is a hypothesis (Solves)."
  },
  {
   "property": "C134",
   "status": "proved",
   "theorems": [
    "Verif.Struct.C134_energies",
    "Verif.Struct.C134_frequency",
    "Verif.Struct.C134_orthogonal",
    "Verif.Struct.C134_mass",
    "Verif.Struct.C134_free",
    "Verif.Struct.C134_density",
    "Verif.Struct.C134_exists"
   ],
   "note": "The eigenvalue solver itself is in the IFEM library: modes are any solutions of the eigenvalue problem of the assembled matrices (Mode), and C134_exists shows that there are enough of them. C134_exists is over the real numbers, the other theorems over any ordered field."
  },
  {
   "property": "C135",
   "status": "proved",
   "theorems": [
    "Verif.Modal.C135_steps",
    "Verif.Modal.C135_dynamic",
    "Verif.Modal.C135_static",
    "Verif.Modal.C135_energy",
    "Verif.Modal.C135_status",
    "Verif.Modal.C135_history",
    "Verif.Modal.C135_history_start"
   ],
   "note": "The modal equations (SIMmodal) and the steps of the time integration (NewmarkSIM) are in the IFEM library; their outcomes are inputs. The modes are those of C134: the example beside the theorems shows that the modes of C134_exists meet the hypotheses whenever the supports admit no motion without strains."
  },
  {
   "property": "C136",
   "status": "partial",
   "theorems": [
    "Verif.Struct.C136_forms_partial",
    "Verif.Struct.C136_modes",
    "Verif.Struct.C136_energy_partial",
    "Verif.Struct.C136_tension_partial",
    "Verif.Struct.C136_scale_partial",
    "Verif.Struct.C136_translation",
    "Verif.Struct.C136_stability_partial",
    "Verif.Struct.C136_thermal_violated"
   ],
   "note": "Full property refuted for changes of temperature (C136_thermal_violated): the stresses of the geometric stiffness are those of the total strains (Elasticity/LinearElasticity.C:199-204, 232), while the stresses reported subtract the thermal strains (Elasticity/Elasticity.C:794-796). All other claims are proved for loads without changes of temperature. The eigenvalue solver is in the IFEM library: states of buckling are any solutions of the eigenvalue problem of the assembled matrices (C136_modes), for eigenvalues of either sign. C136_stability_partial is over the real numbers, the other theorems over any ordered field."
  },
  {
   "property": "C137",
   "status": "proved",
   "theorems": [
    "Verif.PlateStatic.C137_virtual_work",
    "Verif.PlateStatic.C137_balance",
    "Verif.PlateStatic.C137_reported",
    "Verif.PlateStatic.C137_reciprocity",
    "Verif.PlateStatic.C137_minimum",
    "Verif.PlateStatic.C137_exists",
    "Verif.PlateStatic.C137_loose",
    "Verif.PlateStatic.C137_modes",
    "Verif.PlateStatic.C137_twist"
   ],
   "note": "Plates of plane stress material without a field of Young's moduli (see C47 for the others); prescribed pressures, own weight and nodal forces; exact arithmetic. The solver, the assembly of IFEM and quadrature are assumptions."
  },
  {
   "property": "C138",
   "status": "partial",
   "theorems": [
    "Verif.ShellStatic.C138_virtual_work",
    "Verif.ShellStatic.C138_balance",
    "Verif.ShellStatic.C138_reported",
    "Verif.ShellStatic.C138_reciprocity",
    "Verif.ShellStatic.C138_minimum",
    "Verif.ShellStatic.C138_exists",
    "Verif.ShellStatic.C138_modes",
    "Verif.ShellStatic.C138_material_violated"
   ],
   "note": "KirchhoffLoveShell::evalInt ignores the result of evalK, so a material rejected by the constitutive law (Poisson's ratio outside of [0,1/2)) gives a successful assembly without stiffness (C138_material_violated); the other parts of the property are proved in full."
  },
  {
   "property": "C139",
   "status": "partial",
   "theorems": [
    "Verif.Frame.C139_energies_partial",
    "Verif.Frame.C139_mass_partial",
    "Verif.Frame.C139_second_partial",
    "Verif.Frame.C139_energy_partial",
    "Verif.Frame.C139_tension_partial",
    "Verif.Frame.C139_eccentric_violated",
    "Verif.Frame.C139_modes_partial",
    "Verif.Frame.C139_stability_partial"
   ],
   "note": "Partial: members with diagonal lumping of the mass (option 2) are excluded from the part on vibrations, and eccentric members from the part on buckling, where the code refuses them (`C139_eccentric_violated`). Static displacements of a member vanish or exceed the threshold of the code. The eigenvalue solver of the library is not modelled; modes are pairs that satisfy the equations."
  },
  {
   "property": "C140",
   "status": "partial",
   "theorems": [
    "Verif.Finite.C140_balance",
    "Verif.Finite.C140_turn",
    "Verif.Finite.C140_rigid_partial",
    "Verif.Finite.C140_tangent_partial",
    "Verif.Finite.C140_iterate_partial",
    "Verif.Finite.C140_stationary"
   ],
   "note": "The rigid motion theorem excludes F-bar elements, and the tangent and iteration theorems exclude F-bar elements and updated Lagrangian points that are unstrained but turned; the stationarity theorem is for updated Lagrangian elements. The tolerances of the convergence test are not modelled: a state counts as converged when the residual vanishes."
  },
  {
   "property": "C141",
   "status": "partial",
   "theorems": [
    "Verif.PointLoads.C141_tags",
    "Verif.PointLoads.C141_outside",
    "Verif.PointLoads.C141_direction_violated",
    "Verif.PointLoads.C141_text_partial",
    "Verif.PointLoads.C141_text_violated"
   ],
   "note": "Violated for negative or zero directions of shells, and for text input with more than one section, with lines missing at the end of the file, or with lines that are too short. The text theorem is for the first section of a file with as many complete lines as announced."
  },
  {
   "property": "C142",
   "status": "proved",
   "theorems": [
    "Verif.NLShellStatic.C142_balance",
    "Verif.NLShellStatic.C142_turn",
    "Verif.NLShellStatic.C142_rigid",
    "Verif.NLShellStatic.C142_tangent",
    "Verif.NLShellStatic.C142_stationary",
    "Verif.NLShellStatic.C142_iterate"
   ],
   "note": "Proved for nodal loads; pressure loads, which follow the deformed normal, and the convergence tolerance are not modelled."
  },
  {
   "property": "C143",
   "status": "proved",
   "theorems": [
    "Verif.TrussStatic.C143_forces",
    "Verif.TrussStatic.C143_balance",
    "Verif.TrussStatic.C143_turn",
    "Verif.TrussStatic.C143_rigid",
    "Verif.TrussStatic.C143_tangent",
    "Verif.TrussStatic.C143_stationary",
    "Verif.TrussStatic.C143_iterate"
   ],
   "note": "Nodes with three unknowns; the convergence tolerance is not modelled, and nodal loads are given."
  },
  {
   "property": "C144",
   "status": "partial",
   "theorems": [
    "Verif.CableStatic.C144_balance_partial",
    "Verif.CableStatic.C144_weight",
    "Verif.CableStatic.C144_turn",
    "Verif.CableStatic.C144_rigid",
    "Verif.CableStatic.C144_stationary",
    "Verif.CableStatic.C144_iterate",
    "Verif.CableStatic.C144_symmetric",
    "Verif.CableStatic.C144_tangent_partial",
    "Verif.CableStatic.C144_tangent_violated"
   ],
   "note": "Equilibrium, turning and stationarity are proved for states in which the cable is curved in each integration point; missing are states that are straight in some point, where the axes are chosen by other rules (C129 treats cables that stay straight). The tangent is proved to be the derivative of the residual where the tangent vector is along a coordinate axis and the curvature lies in a coordinate plane. In general it is violated, as in C45: for an initially straight cable with tangent vector (3,4,0) that is bent in its plane the assembled tangent matrix is not the derivative of the residual."
  },
  {
   "property": "C145",
   "status": "partial",
   "theorems": [
    "Verif.TrussDynamic.C145_motion_partial",
    "Verif.TrussDynamic.C145_mass",
    "Verif.TrussDynamic.C145_momentum_partial",
    "Verif.TrussDynamic.C145_energy_partial",
    "Verif.TrussDynamic.C145_free_partial",
    "Verif.TrussDynamic.C145_momentum_violated",
    "Verif.TrussDynamic.C145_history_partial"
   ],
   "note": "All laws are proved for bars with lumped masses (the default). For consistent masses (negative input value) C145_momentum_violated shows that acceleration in one direction changes the momentum in the other directions, as the mass matrix couples all components (see C42). The integration in time by the library, damping and separate storage of internal forces are not modelled."
  },
  {
   "property": "C146",
   "status": "partial",
   "theorems": [
    "Verif.CableDynamic.C146_rest_partial",
    "Verif.CableDynamic.C146_momentum_partial",
    "Verif.CableDynamic.C146_kinetic_partial",
    "Verif.CableDynamic.C146_energy_partial",
    "Verif.CableDynamic.C146_history_partial",
    "Verif.CableDynamic.C146_free_partial"
   ],
   "note": "Proved where the cable is curved in its integration points, since the axes of the element do not exist otherwise (see C144), and for masses that are not negative. The integration in time by the library, damping and separate storage of internal forces are not modelled."
  },
  {
   "property": "C147",
   "status": "partial",
   "theorems": [
    "Verif.NLShellDynamic.C147_rest",
    "Verif.NLShellDynamic.C147_momentum",
    "Verif.NLShellDynamic.C147_kinetic",
    "Verif.NLShellDynamic.C147_energy",
    "Verif.NLShellDynamic.C147_material_violated",
    "Verif.NLShellDynamic.C147_history",
    "Verif.NLShellDynamic.C147_free"
   ],
   "note": "Proved for materials that the constitutive law accepts; rejected materials do not make the analysis fail (C147_material_violated). The integration in time by the library and damping are not modelled."
  },
  {
   "property": "C148",
   "status": "proved",
   "theorems": [
    "Verif.FDDynamic.C148_rest",
    "Verif.FDDynamic.C148_momentum",
    "Verif.FDDynamic.C148_kinetic",
    "Verif.FDDynamic.C148_energy",
    "Verif.FDDynamic.C148_history",
    "Verif.FDDynamic.C148_free"
   ],
   "note": "Total Lagrangian formulation, plane and three-dimensional; axisymmetric solids and the integration in time are not covered, and the energy balance is shown for linear material laws. For the updated Lagrangian formulation the mass changes with the volume, see C68."
  }
 ]
}