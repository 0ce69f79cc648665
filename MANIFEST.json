{
 "claims": [
  {
   "property": "C01",
   "status": "proved",
   "theorems": [
    "HelFEM.C01_numbering",
    "HelFEM.C01_nbf_formula_partial",
    "HelFEM.C01_gluing"
   ],
   "note": "Numbering proved for all families, node and element counts and flags. The closed formula in terms of the requested removals excludes the Hermite family without right-edge condition, where the code removes one function too many (see C02)."
  },
  {
   "property": "C02",
   "status": "partial",
   "theorems": [
    "HelFEM.C02_boundary_conditions_partial",
    "HelFEM.C02_hip_no_right_condition_removes_value"
   ],
   "note": "Holds except for HIPBasis::drop_last(false,false), which removes the last value function; the violation is proved."
  },
  {
   "property": "C03",
   "status": "partial",
   "theorems": [
    "HelFEM.Grid.C03_find_element_returns_partial",
    "HelFEM.Grid.C03_find_element_fuel_irrelevant",
    "HelFEM.Grid.C03_nan_never_returns"
   ],
   "note": "Proved for every ordered coordinate; for a NaN coordinate the loop provably never returns."
  },
  {
   "property": "C04",
   "status": "proved",
   "theorems": [
    "HelFEM.Grid.C04_prim_coord",
    "HelFEM.Grid.C04_coord_prim",
    "HelFEM.Grid.C04_prim_rejects",
    "HelFEM.Grid.C04_ends",
    "HelFEM.Grid.C04_gluing",
    "HelFEM.Grid.C04_bad_element",
    "HelFEM.Grid.C04_weights"
   ],
   "note": "Exact arithmetic over an ordered field; rounding is not modelled."
  },
  {
   "property": "C05",
   "status": "proved",
   "theorems": [
    "HelFEM.Grid.C05_add_boundary",
    "HelFEM.Grid.C05_history",
    "HelFEM.Grid.C05_order_independent"
   ],
   "note": ""
  },
  {
   "property": "C06",
   "status": "partial",
   "theorems": [
    "HelFEM.RadialGrid.C06_grid_valid_partial",
    "HelFEM.RadialGrid.C06_snap_noop",
    "HelFEM.RadialGrid.C06_rejects",
    "HelFEM.RadialGrid.C06_negative_exponent_accepted"
   ],
   "note": "Proved for all admissible parameters; a negative exponent of grid type 3 is accepted although the result is not increasing (proved)."
  },
  {
   "property": "C07",
   "status": "partial",
   "theorems": [
    "HelFEM.RadialGrid.C07_offcenter_grid",
    "HelFEM.RadialGrid.C07_plain_grid",
    "HelFEM.RadialGrid.C07_extra_boundary",
    "HelFEM.RadialGrid.C07_finite_offcenter_throws",
    "HelFEM.RadialGrid.C07_finite_nucleus_grid_partial",
    "HelFEM.RadialGrid.C07_finite_nucleus_overshoots"
   ],
   "note": "Off-centre and plain grids as stated. The finite-nucleus grid is increasing and has the nuclear radius as boundary but ends at Rmax + rnuc, which is proved."
  },
  {
   "property": "C08",
   "status": "partial",
   "theorems": [
    "HelFEM.Factory.C08_rejects",
    "HelFEM.Factory.C08_accepts",
    "HelFEM.Factory.C08_roundtrip_partial",
    "HelFEM.Factory.C08_chebyshev_roundtrip_differs"
   ],
   "note": "Identifiers 100 and 101 (Chebyshev nodes) report 4 and 5, so the round trip rebuilds another basis; proved."
  },
  {
   "property": "C09",
   "status": "proved",
   "theorems": [
    "HelFEM.Poly.C09_cardinal_exists_unique",
    "HelFEM.Poly.C09_lip_true_derivative",
    "HelFEM.Poly.C09_lip_unsupported",
    "HelFEM.Poly.C09_lip_physical_derivative"
   ],
   "note": "Exact arithmetic."
  },
  {
   "property": "C10",
   "status": "proved",
   "theorems": [
    "HelFEM.Poly.C10_lip_cardinal",
    "HelFEM.Poly.C10_lip_reproduces",
    "HelFEM.Poly.C10_lip_partition_of_unity"
   ],
   "note": ""
  },
  {
   "property": "C11",
   "status": "proved",
   "theorems": [
    "HelFEM.Poly.C11_hermite_true_derivative",
    "HelFEM.Poly.C11_hermite_unsupported",
    "HelFEM.Poly.C11_hermite_interpolates",
    "HelFEM.Poly.C11_hermite_physical_derivative"
   ],
   "note": "All three Hermite families at once."
  },
  {
   "property": "C12",
   "status": "proved",
   "theorems": [
    "HelFEM.Poly.C12_hermite_reproduces",
    "HelFEM.Poly.C11_hermite_true_derivative",
    "HelFEM.Poly.C11_hermite_interpolates"
   ],
   "note": ""
  },
  {
   "property": "C13",
   "status": "proved",
   "theorems": [
    "HelFEM.Poly.C13_legendre_ends",
    "HelFEM.Poly.C13_legendre_unsupported",
    "HelFEM.Poly.C13_legendre_independent",
    "HelFEM.Poly.C43_continuity"
   ],
   "note": ""
  },
  {
   "property": "C14",
   "status": "proved",
   "theorems": [
    "HelFEM.Poly.C14_times_r",
    "HelFEM.Poly.C14_at_origin",
    "HelFEM.Poly.C14_lip_over_r",
    "HelFEM.Poly.C14_hermite_over_r",
    "HelFEM.Poly.C14_legendre_over_r",
    "HelFEM.Poly.C14_rejects",
    "HelFEM.Poly.C14_unsupported",
    "HelFEM.Poly.C14_fe_over_r",
    "HelFEM.Poly.C14_fe_rejects"
   ],
   "note": ""
  },
  {
   "property": "C15",
   "status": "proved",
   "theorems": [
    "HelFEM.Assembly.C15_matrix",
    "HelFEM.Assembly.C15_symmetric",
    "HelFEM.Assembly.C15_schedule_independent",
    "HelFEM.Assembly.C15_failure",
    "HelFEM.Assembly.C15_vector"
   ],
   "note": "Threads are modelled as an arbitrary order of element computations, each writing its own slot, as the parallel loop does; accumulation is serial as in the code."
  },
  {
   "property": "C16",
   "status": "proved",
   "theorems": [
    "HelFEM.Assembly.C16_terminates",
    "HelFEM.Assembly.C16_settled"
   ],
   "note": "One loop model for converge_panel and converge_rule, whose control flow is identical."
  },
  {
   "property": "C17",
   "status": "proved",
   "theorems": [
    "HelFEM.Assembly.C17_partition",
    "HelFEM.Assembly.C17_only_inner_set"
   ],
   "note": ""
  },
  {
   "property": "C18",
   "status": "proved",
   "theorems": [
    "HelFEM.TwoE.C18_exchange",
    "HelFEM.TwoE.C18_cycle",
    "HelFEM.TwoE.C18_throws_iff"
   ],
   "note": ""
  },
  {
   "property": "C19",
   "status": "proved",
   "theorems": [
    "HelFEM.TwoE.C19_symmetric",
    "HelFEM.TwoE.C19_running",
    "HelFEM.TwoE.C19_exact"
   ],
   "note": "Exactness of the quadrature rule to the stated degree is a hypothesis (C45)."
  },
  {
   "property": "C20",
   "status": "proved",
   "theorems": [
    "HelFEM.TwoE.C20_coulomb"
   ],
   "note": ""
  },
  {
   "property": "C21",
   "status": "proved",
   "theorems": [
    "HelFEM.TwoE.C21_exchange",
    "HelFEM.TwoE.C21_exchange_pairwise"
   ],
   "note": ""
  },
  {
   "property": "C22",
   "status": "proved",
   "theorems": [
    "HelFEM.TwoE.C22_coulomb_factorised",
    "HelFEM.TwoE.C22_exchange_factorised"
   ],
   "note": ""
  },
  {
   "property": "C23",
   "status": "partial",
   "theorems": [
    "HelFEM.Chol.C23_residual",
    "HelFEM.Chol.C23_equal_rows",
    "HelFEM.Chol.C23_exact",
    "HelFEM.Chol.C23_terminates",
    "HelFEM.Chol.C23_signed_psd",
    "HelFEM.Chol.C23_signed_nsd",
    "HelFEM.Chol.C23_signed_diagonal_partial",
    "HelFEM.Chol.C23_indefinite_fails"
   ],
   "note": "Proved for positive semidefinite blocks in both variants and for negative semidefinite blocks in the sign-aware one; the sign-aware variant pivots on the diagonal only and keeps nothing of an indefinite block with zero diagonal (proved)."
  },
  {
   "property": "C24",
   "status": "partial",
   "theorems": [
    "HelFEM.Erfc.C24_symmetric",
    "HelFEM.Erfc.C24_no_order_error",
    "HelFEM.Erfc.C24_branches",
    "HelFEM.Erfc.C24_multipole",
    "HelFEM.Erfc.C24_series_sum",
    "HelFEM.Erfc.C24_choose_partial",
    "HelFEM.Erfc.C24_choose_wrong",
    "HelFEM.Erfc.C24_series_partial",
    "HelFEM.Erfc.C24_series_wrong"
   ],
   "note": "Symmetry and branch selection proved; the general branch returns exactly the Legendre coefficient of erfc(r12)/r12 for every order, also for equal arguments; the binomial coefficient of the Taylor series is wrong for upper index below -1 and lower index above 1, so the fourth and later series coefficients are wrong (proved)."
  },
  {
   "property": "C25",
   "status": "proved",
   "theorems": [
    "HelFEM.Gaunt.C25_lookup",
    "HelFEM.Gaunt.C25_schedule_independent",
    "HelFEM.Gaunt.C25_modified",
    "HelFEM.Gaunt.C25_modified_sum",
    "HelFEM.Gaunt.C25_modified_selection"
   ],
   "note": "The external Gaunt routine is a parameter with its column, sign, triangle and parity symmetries as hypotheses."
  },
  {
   "property": "C26",
   "status": "proved",
   "theorems": [
    "HelFEM.Sym.C26_angular_basis",
    "HelFEM.Sym.C26_negative_mmax",
    "HelFEM.Sym.C26_diatomic_basis"
   ],
   "note": "For mmax >= 0; a negative mmax with lmax >= 0 wraps the size (proved)."
  },
  {
   "property": "C27",
   "status": "proved",
   "theorems": [
    "HelFEM.Sym.C27_atomic",
    "HelFEM.Sym.C27_atomic_rejects",
    "HelFEM.Sym.C27_diatomic",
    "HelFEM.Sym.C27_diatomic_mirror",
    "HelFEM.Sym.C27_diatomic_rejects"
   ],
   "note": "Angular functions without repetitions (C26) and nonnegative l."
  },
  {
   "property": "C28",
   "status": "proved",
   "theorems": [
    "HelFEM.Orth.C28_half_inverse",
    "HelFEM.Orth.C28_half_inverse_exists",
    "HelFEM.Orth.C28_blockwise"
   ],
   "note": "Eigen's LLT and self-adjoint eigensolver are parameters with their documented contracts; solvers_exist shows the contracts are satisfiable."
  },
  {
   "property": "C29",
   "status": "proved",
   "theorems": [
    "HelFEM.NAO.C29_construct",
    "HelFEM.NAO.C29_operators",
    "HelFEM.NAO.C29_compose",
    "HelFEM.NAO.C29_eval",
    "HelFEM.NAO.C29_guards",
    "HelFEM.NAO.C29_coulomb",
    "HelFEM.NAO.C29_exchange"
   ],
   "note": ""
  },
  {
   "property": "C30",
   "status": "partial",
   "theorems": [
    "HelFEM.Ckpt.C30_last_written",
    "HelFEM.Ckpt.C30_read_back_partial",
    "HelFEM.Ckpt.C30_exist",
    "HelFEM.Ckpt.C30_unresolvable_exists",
    "HelFEM.Ckpt.C30_wrong_shape",
    "HelFEM.Ckpt.C30_nul_truncates",
    "HelFEM.Ckpt.C30_imat_unchecked"
   ],
   "note": "Proved for all histories except strings with embedded zero bytes, which are cut off (proved), and empty std::vectors, whose write is undefined. HDF5 is a parameterised store."
  },
  {
   "property": "C31",
   "status": "partial",
   "theorems": [
    "HelFEM.Ckpt.C31_restores_partial",
    "HelFEM.Ckpt.C31_missing_entry_leaves_open",
    "HelFEM.Ckpt.C31_wrong_type_leaves_open"
   ],
   "note": "Holds for successful calls and open files; a failing read of a closed file leaves it open (proved)."
  },
  {
   "property": "C32",
   "status": "proved",
   "theorems": [
    "HelFEM.Ckpt.C32_rejects",
    "HelFEM.Ckpt.C32_unchanged"
   ],
   "note": ""
  },
  {
   "property": "C33",
   "status": "partial",
   "theorems": [
    "HelFEM.Ckpt.C33_atomic_partial",
    "HelFEM.Ckpt.C33_diatomic_partial",
    "HelFEM.Ckpt.C33_chebyshev_changes"
   ],
   "note": "Proved for identifiers 3, 4, 5, 8, 9; Chebyshev bases reload with other nodes (proved)."
  },
  {
   "property": "C34",
   "status": "partial",
   "theorems": [
    "HelFEM.Elec.C34_charge_multiplicity",
    "HelFEM.Elec.C34_throws",
    "HelFEM.Elec.C34_explicit_partial",
    "HelFEM.Elec.C34_negative_accepted",
    "HelFEM.Elec.C34_derive",
    "HelFEM.Elec.C34_metadata"
   ],
   "note": "Charge/multiplicity requests proved completely; negative explicit counts are accepted (proved)."
  },
  {
   "property": "C35",
   "status": "proved",
   "theorems": [
    "HelFEM.Dens.C35_load",
    "HelFEM.Dens.C35_accumulate",
    "HelFEM.Dens.C35_mirror",
    "HelFEM.Dens.C35_save"
   ],
   "note": "Eigensolver contract as in C28 plus ascending eigenvalues; ascending_exist shows it satisfiable."
  },
  {
   "property": "C36",
   "status": "proved",
   "theorems": [
    "HelFEM.AtomDB.C36_radial_density",
    "HelFEM.AtomDB.C36_enclosed_charge",
    "HelFEM.AtomDB.C36_enclosed_charge_monotone",
    "HelFEM.AtomDB.C36_total_charge",
    "HelFEM.AtomDB.C36_hartree_screening",
    "HelFEM.AtomDB.C36_record_range"
   ],
   "note": "The outer part of the screening is a quadrature of a rational function beyond the first element; the theorem bounds its error explicitly for every rule with nonnegative weights."
  },
  {
   "property": "C37",
   "status": "proved",
   "theorems": [
    "HelFEM.ALeg.C37_first_kind",
    "HelFEM.ALeg.C37_second_kind",
    "HelFEM.ALeg.C37_second_kind_far",
    "HelFEM.ALeg.C37_degree_recurrence",
    "HelFEM.ALeg.C37_paths_agree",
    "HelFEM.ALeg.C37_rejections",
    "HelFEM.ALeg.C37_places",
    "HelFEM.ALeg.C37_legendre_equation",
    "HelFEM.ALeg.C37_second_kind_not_zero_above_degree"
   ],
   "note": "Where the continued fraction is iterated the table is exact only in the limit of the stopping constants; the limit is proved for every real |x| > 1, including termination. Contrary to the header comment, second-kind entries with m > l are not zero (proved)."
  },
  {
   "property": "C38",
   "status": "proved",
   "theorems": [
    "HelFEM.Dia.C38_index_bijection",
    "HelFEM.Dia.C38_expand",
    "HelFEM.Dia.C38_remove_expand",
    "HelFEM.Dia.C38_expand_remove",
    "HelFEM.Dia.C38_wrong_size",
    "HelFEM.Dia.C38_trace",
    "HelFEM.Dia.C38_dummy_to_real",
    "HelFEM.Dia.C38_element_functions",
    "HelFEM.Dia.C38_bf_list_m"
   ],
   "note": "For radial bases with at least one function."
  },
  {
   "property": "C39",
   "status": "proved",
   "theorems": [
    "HelFEM.Dia.C39_tables",
    "HelFEM.Dia.C39_lookup",
    "HelFEM.Dia.C39_coulomb_never_misses",
    "HelFEM.Dia.C39_exchange_never_misses",
    "HelFEM.Dia.C39_couplings_tabulated",
    "HelFEM.Dia.C39_integral_tasks"
   ],
   "note": "Also proved: the Gaunt table sized by the constructor covers every coupling coefficient, and the integral build covers every table entry once."
  },
  {
   "property": "C40",
   "status": "proved",
   "theorems": [
    "HelFEM.Nucleus.C40_factory",
    "HelFEM.Nucleus.C40_continuous",
    "HelFEM.Nucleus.C40_point_outside",
    "HelFEM.Nucleus.C40_above_point",
    "HelFEM.Nucleus.C40_breakpoints",
    "HelFEM.Nucleus.C40_charge_distributions",
    "HelFEM.Nucleus.C40_gaussian_series",
    "HelFEM.Nucleus.C40_gaussian_far"
   ],
   "note": "The Gaussian nucleus switches to a series near the origin; the jump is bounded explicitly."
  },
  {
   "property": "C41",
   "status": "partial",
   "theorems": [
    "HelFEM.Radii.C41_zero",
    "HelFEM.Radii.C41_threshold_partial",
    "HelFEM.Radii.C41_returns_neighbour",
    "HelFEM.Radii.C41_tolerance_is_not_the_threshold"
   ],
   "note": "The code violates the claim: the bisection compares the density with its tolerance instead of the threshold. Proved: a counterexample, what is returned in general, and the claim when tolerance and threshold coincide."
  },
  {
   "property": "C42",
   "status": "partial",
   "theorems": [
    "HelFEM.Radii.C42_radius_partial",
    "HelFEM.Radii.C42_more_outside",
    "HelFEM.Radii.C42_out_of_range"
   ],
   "note": "Proved within the tolerance for every request between zero and the number of electrons. The radius returned may have more electrons outside than requested, and a request above the number of electrons reads out of range (both proved)."
  },
  {
   "property": "C43",
   "status": "proved",
   "theorems": [
    "HelFEM.Poly.C43_continuity",
    "HelFEM.Poly.C43_constructor_accepts"
   ],
   "note": ""
  },
  {
   "property": "C44",
   "status": "proved",
   "theorems": [
    "HelFEM.Poly.C44_boundary_values"
   ],
   "note": ""
  },
  {
   "property": "C45",
   "status": "proved",
   "theorems": [
    "HelFEM.Quad.C45_lobatto_structure",
    "HelFEM.Quad.C45_lobatto_residual",
    "HelFEM.Quad.C45_lobatto_exact",
    "HelFEM.Quad.C45_lobatto_rejects"
   ],
   "note": "Termination of the Newton loop is not claimed."
  },
  {
   "property": "C46",
   "status": "partial",
   "theorems": [
    "HelFEM.Quad.C46_chebyshev_points",
    "HelFEM.Quad.C46_chebyshev_substitution",
    "HelFEM.Quad.C46_chebyshev_weight_sum_partial",
    "HelFEM.Quad.C46_one_point_rule_wrong",
    "HelFEM.Quad.C46_radial_rule",
    "HelFEM.Quad.C46_converges"
   ],
   "note": "The weight sum is 2 for n >= 2 and 8/3 for n = 1; both proved."
  },
  {
   "property": "C47",
   "status": "partial",
   "theorems": [
    "HelFEM.Quad.C47_compound_product",
    "HelFEM.Quad.C47_phi_exact",
    "HelFEM.Quad.C47_solid_angle_partial",
    "HelFEM.Quad.C47_lobatto_sphere_exact"
   ],
   "note": "Total weight is 4 pi for at least two polar points (see C46 for one)."
  },
  {
   "property": "C48",
   "status": "proved",
   "theorems": [
    "HelFEM.Assembly.C48_pieces",
    "HelFEM.Assembly.C48_matrix_integrals",
    "HelFEM.Assembly.C48_vector_integrals",
    "HelFEM.Assembly.C48_nonfinite_weight"
   ],
   "note": ""
  },
  {
   "property": "C49",
   "status": "proved",
   "theorems": [
    "HelFEM.Assembly.C49_overlap_posdef",
    "HelFEM.Assembly.C49_derivative_psd"
   ],
   "note": ""
  },
  {
   "property": "C50",
   "status": "proved",
   "theorems": [
    "HelFEM.Assembly.C50_auto_exact"
   ],
   "note": "Exactness of the Lobatto rule of each order is a hypothesis (C45 gives it for converged nodes)."
  },
  {
   "property": "C51",
   "status": "proved",
   "theorems": [
    "HelFEM.Orth.C51_generalised_eigenproblem",
    "HelFEM.Orth.C51_complete_basis"
   ],
   "note": "Same solver contract as C28."
  },
  {
   "property": "C52",
   "status": "partial",
   "theorems": [
    "HelFEM.NAO.C52_extract_partial",
    "HelFEM.NAO.C52_cross_l_always_throws"
   ],
   "note": "Extraction is proved; operators between different l always throw, because every extracted set gets its own copy of the basis (proved)."
  },
  {
   "property": "C53",
   "status": "partial",
   "theorems": [
    "HelFEM.Ckpt.C53_crash_partial",
    "HelFEM.Ckpt.C53_complete",
    "HelFEM.Ckpt.C53_old_value_lost",
    "HelFEM.Ckpt.C53_zeros_read_back"
   ],
   "note": "Other entries are intact at every crash point; the overwritten entry can be lost or read back as zeros (proved)."
  },
  {
   "property": "C54",
   "status": "partial",
   "theorems": [
    "HelFEM.Dens.C54_projection_same_basis",
    "HelFEM.Dens.C54_projection_count",
    "HelFEM.Dens.C54_load_partial",
    "HelFEM.Dens.C54_wrong"
   ],
   "note": "The projection is proved; the block orbitals are restored only where the functions are orthonormal as they stand, because the density is transformed with X^T P X instead of the inverse (negation proved)."
  },
  {
   "property": "C55",
   "status": "partial",
   "theorems": [
    "HelFEM.Dens.C55_saved_partial",
    "HelFEM.Dens.C55_wrong"
   ],
   "note": "Proved without mirrored blocks; under |m| symmetry the mirrored half is not saved (negation proved)."
  },
  {
   "property": "C56",
   "status": "proved",
   "theorems": [
    "HelFEM.Dens.C56_core_guess",
    "HelFEM.Dens.C56_closed_shell",
    "HelFEM.Dens.C56_exchange",
    "HelFEM.Dens.C56_zeeman",
    "HelFEM.Dens.C56_spins",
    "HelFEM.Dens.C56_exchange_spins"
   ],
   "note": ""
  },
  {
   "property": "C57",
   "status": "partial",
   "theorems": [
    "HelFEM.AtomDB.C57_density_derivatives_partial",
    "HelFEM.AtomDB.C57_nucleus_value_is_not_the_limit"
   ],
   "note": "Proved inside elements; the value returned at the nucleus is 0 instead of the limit (proved)."
  },
  {
   "property": "C58",
   "status": "proved",
   "theorems": [
    "HelFEM.Nucleus.C58_exact_ground_state",
    "HelFEM.Nucleus.C58_series",
    "HelFEM.Nucleus.C58_finite_at_origin",
    "HelFEM.Nucleus.C58_far"
   ],
   "note": "For every value of the normalization constant b; its numerical search is not modelled."
  },
  {
   "property": "C59",
   "status": "proved",
   "theorems": [
    "HelFEM.Radii.C59_maximum",
    "HelFEM.Radii.C59_single_maximum"
   ],
   "note": ""
  },
  {
   "property": "C60",
   "status": "proved",
   "theorems": [
    "HelFEM.AtomJK.C60_coulomb_exchange",
    "HelFEM.AtomJK.C60_not_computed",
    "HelFEM.AtomJK.C60_all_multipoles",
    "HelFEM.AtomJK.C60_exact",
    "HelFEM.AtomJK.C60_eri_conj",
    "HelFEM.AtomJK.C60_eri_electrons",
    "HelFEM.AtomJK.C60_symmetric"
   ],
   "note": "The integrals of three spherical harmonics are a function with their symmetries and selection rules; radial integrals satisfy their symmetry and positivity."
  },
  {
   "property": "C61",
   "status": "proved",
   "theorems": [
    "HelFEM.AtomJK.C61_no_self_interaction"
   ],
   "note": ""
  },
  {
   "property": "C62",
   "status": "proved",
   "theorems": [
    "HelFEM.AtomJK.C62_yukawa",
    "HelFEM.AtomJK.C62_erfc"
   ],
   "note": ""
  },
  {
   "property": "C63",
   "status": "proved",
   "theorems": [
    "HelFEM.AtomJK.C63_last_tei",
    "HelFEM.AtomJK.C63_last_screened"
   ],
   "note": ""
  },
  {
   "property": "C64",
   "status": "proved",
   "theorems": [
    "HelFEM.AtomJK.C64_exchange",
    "HelFEM.AtomJK.C64_yukawa",
    "HelFEM.AtomJK.C64_erfc",
    "HelFEM.AtomJK.C64_guards"
   ],
   "note": ""
  },
  {
   "property": "C65",
   "status": "partial",
   "theorems": [
    "HelFEM.XC.C65_atomic_values",
    "HelFEM.XC.C65_atomic_derivative",
    "HelFEM.XC.C65_atomic_order",
    "HelFEM.XC.C65_batches",
    "HelFEM.XC.C65_no_race",
    "HelFEM.XC.C65_unknown",
    "HelFEM.XC.C65_atomic_spins_values",
    "HelFEM.XC.C65_atomic_spins_derivative_partial",
    "HelFEM.XC.C65_atomic_alpha_only",
    "HelFEM.XC.C65_alpha_only_laplacian_ub",
    "HelFEM.XC.C65_laplacian_only",
    "HelFEM.XC.C65_laplacian_only_wrong",
    "HelFEM.XC.C65_diatomic_values",
    "HelFEM.XC.C65_diatomic_derivative",
    "HelFEM.XC.C65_diatomic_spins_derivative",
    "HelFEM.XC.C65_diatomic_laplacian"
   ],
   "note": "The code violates the claim on the atomic grid with two spins: a functional of the Laplacian alone loses the kinetic part of the Laplacian term, and without the beta flag it writes to an empty matrix (both proved). Everything else is proved for the atomic and the diatomic grid."
  },
  {
   "property": "C66",
   "status": "proved",
   "theorems": [
    "HelFEM.XC.C66_values",
    "HelFEM.XC.C66_derivative",
    "HelFEM.XC.C66_order",
    "HelFEM.XC.C66_spins_values",
    "HelFEM.XC.C66_spins_derivative",
    "HelFEM.XC.C66_alpha_only",
    "HelFEM.XC.C66_unknown",
    "HelFEM.XC.C66_density_derivatives"
   ],
   "note": "No quadrature point at the nucleus (the code divides by the radius)."
  },
  {
   "property": "C67",
   "status": "proved",
   "theorems": [
    "HelFEM.XC.C67_azimuth",
    "HelFEM.XC.C67_spins_azimuth",
    "HelFEM.XC.C67_bases",
    "HelFEM.XC.C67_values",
    "HelFEM.XC.C67_derivative",
    "HelFEM.XC.C67_sharing",
    "HelFEM.XC.C67_spins_derivative"
   ],
   "note": "Densities without elements between different m, which the calling program ensures (--symmetry >= 1)."
  },
  {
   "property": "C68",
   "status": "partial",
   "theorems": [
    "HelFEM.Harm.C68_orthonormal",
    "HelFEM.Harm.C68_conj",
    "HelFEM.Harm.C68_lowest",
    "HelFEM.Harm.C68_harmonics",
    "HelFEM.Harm.C68_derivatives_partial",
    "HelFEM.Harm.C68_pole",
    "HelFEM.Harm.C68_laplacian",
    "HelFEM.Harm.C68_block"
   ],
   "note": "C68_pole: on the axis the polar derivative is 0 for m = 1 and twice the true value for m = -1. The Laplacian is proved off the axis and the origin, where the formula divides."
  },
  {
   "property": "C69",
   "status": "proved",
   "theorems": [
    "HelFEM.Harm.C69_gaunt_real",
    "HelFEM.Harm.C69_gaunt_symmetric",
    "HelFEM.Harm.C69_gaunt_selection",
    "HelFEM.Harm.C69_monopole",
    "HelFEM.Harm.C69_expansion",
    "HelFEM.Harm.C69_table",
    "HelFEM.Harm.C69_couplings",
    "HelFEM.Harm.C69_modified"
   ],
   "note": "The external Wigner library returns the integral of three spherical harmonics. The modified coefficient needs the table ranges stated in the theorem."
  },
  {
   "property": "C70",
   "status": "partial",
   "theorems": [
    "HelFEM.OneE.C70_overlap",
    "HelFEM.OneE.C70_kinetic",
    "HelFEM.OneE.C70_model_potential",
    "HelFEM.OneE.C70_nuclear",
    "HelFEM.OneE.C70_nuclear_central",
    "HelFEM.OneE.C70_nuclear_throws",
    "HelFEM.OneE.C70_dipole",
    "HelFEM.OneE.C70_quadrupole",
    "HelFEM.OneE.C70_magnetic",
    "HelFEM.OneE.C70_cross_overlap",
    "HelFEM.OneE.C70_finite_matrix",
    "HelFEM.OneE.C70_finite_partial",
    "HelFEM.OneE.C70_finite_drops_charges",
    "HelFEM.OneE.C70_fem"
   ],
   "note": "Element integrals are taken as exact. The code violates the claim for a finite nucleus with charges on the axis: nuclear() returns the potential of the nucleus only (C70_finite_drops_charges). C70_fem: the finite element bases satisfy the conditions on the radial functions."
  },
  {
   "property": "C71",
   "status": "partial",
   "theorems": [
    "HelFEM.OneE.C71_none",
    "HelFEM.OneE.C71_confinement_partial",
    "HelFEM.OneE.C71_polynomial_shift",
    "HelFEM.OneE.C71_polynomial_shift_wrong",
    "HelFEM.OneE.C71_nonneg",
    "HelFEM.OneE.C71_spherical",
    "HelFEM.OneE.C71_spherical_confinement_partial"
   ],
   "note": "The code violates the claim for the polynomial potential with a shift: it integrates (r-s)^(N+2)/r^2 instead of (r-s)^N (C71_polynomial_shift, C71_polynomial_shift_wrong). For negative N, which needs shift = 0, the potential is (|R| r)^N."
  },
  {
   "property": "C72",
   "status": "proved",
   "theorems": [
    "HelFEM.DiaOne.C72_overlap",
    "HelFEM.DiaOne.C72_cross_overlap",
    "HelFEM.DiaOne.C72_kinetic",
    "HelFEM.DiaOne.C72_nuclear",
    "HelFEM.DiaOne.C72_dipole",
    "HelFEM.DiaOne.C72_quadrupole",
    "HelFEM.DiaOne.C72_magnetic",
    "HelFEM.DiaOne.C72_constructor",
    "HelFEM.DiaOne.C72_metric",
    "HelFEM.DiaOne.C72_fem"
   ],
   "note": "The radial matrices (radial_integral, kinetic, overlap of two radial bases) are assumed to be exact where the integrals exist; their quadrature is not part of this claim."
  },
  {
   "property": "C73",
   "status": "proved",
   "theorems": [
    "HelFEM.DiaJK.C73_coulomb_exchange",
    "HelFEM.DiaJK.C73_not_computed",
    "HelFEM.DiaJK.C73_wrong_size",
    "HelFEM.DiaJK.C73_exact",
    "HelFEM.DiaJK.C73_all_multipoles"
   ],
   "note": "The radial integrals Plm_integral, Qlm_integral and twoe_integral are parameters with the sizes and symmetries of integrals over products of real functions. The in-element integrals are reproduced to the threshold where their kernel is definite."
  },
  {
   "property": "C74",
   "status": "proved",
   "theorems": [
    "HelFEM.DiaQuad.C74_cached",
    "HelFEM.DiaQuad.C74_symmetry",
    "HelFEM.DiaQuad.C74_converges",
    "HelFEM.DiaQuad.C74_two_elements",
    "HelFEM.DiaQuad.C74_refinement",
    "HelFEM.DiaQuad.C74_order",
    "HelFEM.DiaQuad.C74_radials",
    "HelFEM.DiaQuad.C74_cache_history",
    "HelFEM.DiaQuad.C74_cache_values"
   ],
   "note": "Exact arithmetic. The values of the Legendre functions enter as functions equal to P_L^M and Q_L^M; that the cache supplies them is C74_cache_values with C37 (within any tolerance where the code iterates a continued fraction)."
  },
  {
   "property": "C75",
   "status": "proved",
   "theorems": [
    "HelFEM.SadSCF.C75_prepare",
    "HelFEM.SadSCF.C75_prepare_yukawa",
    "HelFEM.SadSCF.C75_prepare_erfc",
    "HelFEM.SadSCF.C75_energy",
    "HelFEM.SadSCF.C75_energy_unrestricted",
    "HelFEM.SadSCF.C75_symmetric",
    "HelFEM.SadSCF.C75_gradient",
    "HelFEM.SadSCF.C75_gradient_unrestricted",
    "HelFEM.SadSCF.C75_occupation",
    "HelFEM.SadSCF.C75_occupation_alpha",
    "HelFEM.SadSCF.C75_occupation_beta",
    "HelFEM.SadSCF.C75_stationary",
    "HelFEM.SadSCF.C75_stationary_unrestricted",
    "HelFEM.SadSCF.C75_batch"
   ],
   "note": "Exact arithmetic; no point of the grid at the nucleus, functionals known to libxc whose returned derivatives are derivatives of their energy. Without beta electrons the beta Fock blocks carry no exchange or correlation, so the gradient holds for motions that keep the beta density at zero."
  },
  {
   "property": "C76",
   "status": "partial",
   "theorems": [
    "HelFEM.Drv.C76_prepare",
    "HelFEM.Drv.C76_prepare_yukawa",
    "HelFEM.Drv.C76_prepare_erfc",
    "HelFEM.Drv.C76_electrons",
    "HelFEM.Drv.C76_energy",
    "HelFEM.Drv.C76_energy_unrestricted",
    "HelFEM.Drv.C76_symmetric",
    "HelFEM.Drv.C76_gradient",
    "HelFEM.Drv.C76_gradient_unrestricted",
    "HelFEM.Drv.C76_occupation",
    "HelFEM.Drv.C76_occupation_alpha",
    "HelFEM.Drv.C76_occupation_beta",
    "HelFEM.Drv.C76_stationary",
    "HelFEM.Drv.C76_stationary_unrestricted",
    "HelFEM.Drv.C76_nuclei",
    "HelFEM.Drv.C76_nuclear_field_wrong",
    "HelFEM.Drv.C76_mirror_field_wrong",
    "HelFEM.Drv.C76_odd_default_wrong"
   ],
   "note": "Exact arithmetic. Proved in full for the atomic routines; for the diatomic routines under the hypothesis that they compute with one set of integrals (their parts are C65, C67, C73). Found: with symmetry=3 the diatomic program treats m and -m alike also in a magnetic field (C76_mirror_field_wrong); the atomic program leaves out the energy of off-centre charges in an electric field; a default run with an odd number of electrons counts one unpaired electron in a magnetic field although it is spin-restricted. Without beta electrons the beta Fock blocks carry no exchange or correlation."
  },
  {
   "property": "C77",
   "status": "partial",
   "theorems": [
    "HelFEM.Screening.C77_screening_partial",
    "HelFEM.Screening.C77_lda",
    "HelFEM.Screening.C77_restricted_partial",
    "HelFEM.Screening.C77_free_atom_partial",
    "HelFEM.Screening.C77_free_atom_zero",
    "HelFEM.Screening.C77_cross_terms",
    "HelFEM.Screening.C77_meta_gga",
    "HelFEM.Screening.C77_gga_is_not_the_functional_derivative"
   ],
   "note": "Proved for functionals of the densities alone. For gradient-dependent functionals the theorems state the exact difference from the functional derivative, and C77_gga_is_not_the_functional_derivative shows that it is not zero: the Laplacian is used where the second radial derivative belongs (so the 2/r part of the divergence is counted twice), and the change of sigma_ab is counted twice (C77_cross_terms). Database atoms inside elements only; libxc is assumed to return consistent second derivatives at the points. Quadrature points coinciding with the nucleus are excluded."
  },
  {
   "property": "C78",
   "status": "partial",
   "theorems": [
    "HelFEM.Screening.C78_grid_point",
    "HelFEM.Screening.C78_arrays",
    "HelFEM.Screening.C78_nucleus",
    "HelFEM.Screening.C78_wrong_size",
    "HelFEM.Screening.C78_gradient_array_at_nucleus"
   ],
   "note": "Proved for all points away from the nucleus and for the two routines of the nucleus. Not true of the first entry of the gradient and Laplacian arrays, which is zero (marked as to do in the source), nor of the first entry of electron_density with rsqweight, which is not multiplied by r^2."
  },
  {
   "property": "C79",
   "status": "partial",
   "theorems": [
    "HelFEM.C79_gsz",
    "HelFEM.C79_gsz_range",
    "HelFEM.C79_gsz_no_charge",
    "HelFEM.C79_thomas_fermi",
    "HelFEM.C79_sap",
    "HelFEM.C79_sap_shape",
    "HelFEM.C79_sap_range",
    "HelFEM.C79_sap_nan",
    "HelFEM.C79_sapfe"
   ],
   "note": "Proved except for two charges where the GSZ code fails: Z = 103 passes the range check and reads behind the table (C79_gsz_range), and Z = 0 gives NaN (C79_gsz_no_charge). The table is indexed by Z although its 103 entries and the check fit Z-1. At the radius NaN the SAP search does not end (C79_sap_nan). The SAP table is a parameter with increasing radii; infinities and rounding are not modelled."
  },
  {
   "property": "C80",
   "status": "partial",
   "theorems": [
    "HelFEM.C80_gto",
    "HelFEM.C80_sto",
    "HelFEM.C80_completeness_partial",
    "HelFEM.C80_importance_partial",
    "HelFEM.C80_nocc",
    "HelFEM.C80_importance_unrestricted",
    "HelFEM.C80_importance_misses_orbital"
   ],
   "note": "Normalisation is proved by exact integration. The profiles are compared with the norm by the quadrature of the elements; that it is at most 1, and that Sinvh is orthonormal with the overlap of this quadrature, are not proved. In unrestricted calculations the importance profile leaves out occupied orbitals (C80_importance_unrestricted, C80_importance_misses_orbital)."
  },
  {
   "property": "C81",
   "status": "proved",
   "theorems": [
    "HelFEM.SadGrid.C81_screening",
    "HelFEM.SadGrid.C81_exact",
    "HelFEM.SadGrid.C81_nonneg",
    "HelFEM.SadGrid.C81_zeff",
    "HelFEM.SadGrid.C81_point_at_the_nucleus"
   ],
   "note": "The integrals over whole elements are those of the radial basis, taken as exact. A rule with a point at the end -1 would make every value on the innermost element undefined (C81_point_at_the_nucleus): spherical_potential lacks the guard of the two-electron integrals. The rule in use has no such point."
  },
  {
   "property": "C82",
   "status": "proved",
   "theorems": [
    "HelFEM.SadGrid.C82_orbitals",
    "HelFEM.SadGrid.C82_weights",
    "HelFEM.SadGrid.C82_tau",
    "HelFEM.SadGrid.C82_charge",
    "HelFEM.SadGrid.C82_coulomb"
   ],
   "note": "The rows of the nucleus of the derivatives and of the kinetic energy density are zero by construction and not the limits; their weight is zero. Charge and Coulomb energy are stated for symmetric density matrices."
  },
  {
   "property": "C83",
   "status": "proved",
   "theorems": [
    "HelFEM.SadSCF.C83_hund_total",
    "HelFEM.SadSCF.C83_hund_spin",
    "HelFEM.SadSCF.C83_auto",
    "HelFEM.SadSCF.C83_restricted",
    "HelFEM.SadSCF.C83_explicit",
    "HelFEM.SadSCF.C83_hund",
    "HelFEM.SadSCF.C83_length",
    "HelFEM.SadSCF.C83_fractional",
    "HelFEM.SadSCF.C83_one_spin",
    "HelFEM.SadSCF.C83_rest_dropped",
    "HelFEM.SadSCF.C83_negative",
    "HelFEM.SadSCF.C83_not_compared",
    "HelFEM.SadSCF.C83_atoms",
    "HelFEM.SadSCF.C83_atoms_odd",
    "HelFEM.SadSCF.C83_past_table"
   ],
   "note": "Findings: one_spin, rest_dropped, negative, not_compared, atoms_odd, past_table."
  },
  {
   "property": "C84",
   "status": "partial",
   "theorems": [
    "HelFEM.SadSCF.C84_start",
    "HelFEM.SadSCF.C84_start_refused",
    "HelFEM.SadSCF.C84_result",
    "HelFEM.SadSCF.C84_electrons",
    "HelFEM.SadSCF.C84_same_density",
    "HelFEM.SadSCF.C84_saved",
    "HelFEM.SadSCF.C84_load",
    "HelFEM.SadSCF.C84_roundtrip_partial",
    "HelFEM.SadSCF.C84_repair",
    "HelFEM.SadSCF.C84_overlap_wrong",
    "HelFEM.SadSCF.C84_fraction_wrong",
    "HelFEM.SadSCF.C84_spin_wrong"
   ],
   "note": "The restart has the saved density for the same basis with orthonormal functions, whole numbers of electrons per shell and occupations within the capacity; without these it fails, shown by overlap_wrong, fraction_wrong and spin_wrong. Missing: a bound for the loss in a general basis. C84_repair proves the corrected transformation."
  },
  {
   "property": "C85",
   "status": "partial",
   "theorems": [
    "HelFEM.Aij.C85_charge",
    "HelFEM.Aij.C85_hole",
    "HelFEM.Aij.C85_potential",
    "HelFEM.Aij.C85_breakpoints",
    "HelFEM.Aij.C85_energies",
    "HelFEM.Aij.C85_period",
    "HelFEM.Aij.C85_grid",
    "HelFEM.Aij.C85_vacancy_repeats",
    "HelFEM.Aij.C85_free_atom",
    "HelFEM.Aij.C85_negative_count",
    "HelFEM.Aij.C85_lmax"
   ],
   "note": "The grid is valid if the edge of the hole is not a boundary already; with a vacancy and either no electrons of the atom or no jellium electrons it always is, and a zero-length element comes out (C85_vacancy_repeats). A negative number of jellium electrons is undefined instead of refused (C85_negative_count)."
  },
  {
   "property": "C86",
   "status": "partial",
   "theorems": [
    "HelFEM.Aij.C86_energy",
    "HelFEM.Aij.C86_gradient",
    "HelFEM.Aij.C86_energy_unrestricted",
    "HelFEM.Aij.C86_gradient_unrestricted",
    "HelFEM.Aij.C86_symmetric",
    "HelFEM.Aij.C86_beta_dropped",
    "HelFEM.Aij.C86_beta_dropped_energy",
    "HelFEM.Aij.C86_core",
    "HelFEM.Aij.C86_saved",
    "HelFEM.Aij.C86_saved_alpha",
    "HelFEM.Aij.C86_fock_roundtrip",
    "HelFEM.Aij.C86_broken_file",
    "HelFEM.Aij.C86_start",
    "HelFEM.Aij.C86_start_empty"
   ],
   "note": "With two spins the energy is right only if no shell holds beta electrons without alpha electrons: those electrons are dropped (C86_beta_dropped, C86_beta_dropped_energy). The saved density is that of the alpha electrons only in unrestricted runs (C86_saved_alpha). A file without its three first numbers is undefined behaviour, and so is one that says it has no matrices in an unrestricted run; the sizes of the matrices are not checked."
  },
  {
   "property": "C87",
   "status": "proved",
   "theorems": [
    "HelFEM.Cmd.C87_values",
    "HelFEM.Cmd.C87_assign",
    "HelFEM.Cmd.C87_two_words",
    "HelFEM.Cmd.C87_flag",
    "HelFEM.Cmd.C87_cluster",
    "HelFEM.Cmd.C87_short_value",
    "HelFEM.Cmd.C87_short_wrong",
    "HelFEM.Cmd.C87_rest",
    "HelFEM.Cmd.C87_dash",
    "HelFEM.Cmd.C87_wrong",
    "HelFEM.Cmd.C87_again",
    "HelFEM.Cmd.C87_keeps",
    "HelFEM.Cmd.C87_persist",
    "HelFEM.Cmd.C87_add",
    "HelFEM.Cmd.C87_types",
    "HelFEM.Cmd.C87_ambiguous",
    "HelFEM.Cmd.C87_lookup",
    "HelFEM.Cmd.C87_check_go",
    "HelFEM.Cmd.C87_check_help",
    "HelFEM.Cmd.C87_check",
    "HelFEM.Cmd.C87_join",
    "HelFEM.Cmd.C87_quote",
    "HelFEM.Cmd.C87_line_faults",
    "HelFEM.Cmd.C87_int",
    "HelFEM.Cmd.C87_bool",
    "HelFEM.Cmd.C87_int_print"
   ],
   "note": "Findings proved: a value given to one parse satisfies a required option in the next (C87_persist); a missing required option with no arguments ends the program with code 0 (C87_check); the text without characters reads the first element of an empty vector, two spaces make an empty argument, a text that cannot be split adds to the errors of the parse before (C87_line_faults). The reader of double is any function."
  },
  {
   "property": "C88",
   "status": "partial",
   "theorems": [
    "HelFEM.Func.C88_name",
    "HelFEM.Func.C88_number",
    "HelFEM.Func.C88_trailing",
    "HelFEM.Func.C88_parse",
    "HelFEM.Func.C88_parsed",
    "HelFEM.Func.C88_roundtrip",
    "HelFEM.Func.C88_minus_one",
    "HelFEM.Func.C88_refused",
    "HelFEM.Func.C88_kinds",
    "HelFEM.Func.C88_share",
    "HelFEM.Func.C88_share_old",
    "HelFEM.Func.C88_accepted",
    "HelFEM.Func.C88_atomic",
    "HelFEM.Func.C88_diatomic",
    "HelFEM.Func.C88_total",
    "HelFEM.Func.C88_exact_exchange",
    "HelFEM.Func.C88_aij",
    "HelFEM.Func.C88_lost",
    "HelFEM.Func.C88_hf_ignored",
    "HelFEM.Func.C88_potential"
   ],
   "note": "Proved except that the exact exchange is that of the whole method only if the functional in the place of correlation has none (C88_total); C88_lost refutes the general statement, C88_aij and C88_hf_ignored show it for the atom in jellium and the written potentials. Other findings: trailing characters after a number are ignored (C88_trailing), functionals that need VV10 are accepted without it (C88_lost), exact_exchange is 0 for range separated functionals (C88_exact_exchange)."
  },
  {
   "property": "C89",
   "status": "partial",
   "theorems": [
    "HelFEM.Core.C89_orbitals",
    "HelFEM.Core.C89_memory",
    "HelFEM.Core.C89_converged",
    "HelFEM.Core.C89_defined",
    "HelFEM.Core.C89_ends",
    "HelFEM.Core.C89_nothing_added",
    "HelFEM.Core.C89_both_signs",
    "HelFEM.Core.C89_half",
    "HelFEM.Core.C89_few"
   ],
   "note": "Convergence, order of reports, the memory, definedness and the end of the search are proved. The last sentence fails for symmetries other than sigma: the basis has both signs of m (C89_both_signs) and the number of orbitals counts each shell once, so only half of the shells are seen (C89_half). Other findings: --nadd=0 reports the smallest basis as converged to all thresholds (C89_nothing_added); with fewer functions than orbitals energies of different numbers of orbitals are compared (C89_few). Energies of a basis are any function of elements and partial waves."
  },
  {
   "property": "C90",
   "status": "partial",
   "theorems": [
    "HelFEM.TGrid.C90_geometry",
    "HelFEM.TGrid.C90_volume",
    "HelFEM.TGrid.C90_weight",
    "HelFEM.TGrid.C90_orientation",
    "HelFEM.TGrid.C90_projection",
    "HelFEM.TGrid.C90_overlap",
    "HelFEM.TGrid.C90_overlap_psd",
    "HelFEM.TGrid.C90_mirror",
    "HelFEM.TGrid.C90_middle",
    "HelFEM.TGrid.C90_middle_s",
    "HelFEM.TGrid.C90_middle_wrong",
    "HelFEM.TGrid.C90_model_potential",
    "HelFEM.TGrid.C90_atomic"
   ],
   "note": "Proved for model potentials, for probes at the nuclei and for s orbitals at the bond centre. For the bond centre with l > 0 the statement is false: the Legendre function gets the coordinate cos(nu) instead of the cosine of the polar angle (C90_middle, C90_middle_wrong). The right probe's polar axis is reversed, which changes only signs (C90_orientation). How well the rule integrates is C07; rounding is not modelled."
  },
  {
   "property": "C91",
   "status": "partial",
   "theorems": [
    "HelFEM.Cross.C91_pairs",
    "HelFEM.Cross.C91_assembly",
    "HelFEM.Cross.C91_integral",
    "HelFEM.Cross.C91_swap",
    "HelFEM.Cross.C91_disjoint",
    "HelFEM.Cross.C91_kinds",
    "HelFEM.Cross.C91_singular",
    "HelFEM.Cross.C91_limit",
    "HelFEM.Cross.C91_overlap",
    "HelFEM.Cross.C91_potential",
    "HelFEM.Cross.C91_powers",
    "HelFEM.Cross.C91_diatomic",
    "HelFEM.Cross.C91_self",
    "HelFEM.Cross.C91_volume",
    "HelFEM.Cross.C91_refined",
    "HelFEM.Cross.C91_exact",
    "HelFEM.Cross.C91_constructed"
   ],
   "note": "Proved for all weights that are finite on the shared ranges; exact for overlaps by C91_exact with a rule exact up to the sum of the degrees, in the limit otherwise (C91_limit). For a weight infinite at a common first boundary, such as 1/r, the result is not finite although the integral exists (C91_singular): false as stated. C91_self is for nonnegative powers of sinh. Rounding is not modelled."
  },
  {
   "property": "C92",
   "status": "partial",
   "theorems": [
    "HelFEM.Compl.C92_exponents",
    "HelFEM.Compl.C92_batches",
    "HelFEM.Compl.C92_completeness",
    "HelFEM.Compl.C92_canonical",
    "HelFEM.Compl.C92_importance0",
    "HelFEM.Compl.C92_importance_partial",
    "HelFEM.Compl.C92_importance_bounds",
    "HelFEM.Compl.C92_run",
    "HelFEM.Compl.C92_negative",
    "HelFEM.Compl.C92_shells",
    "HelFEM.Compl.C92_names",
    "HelFEM.Compl.C92_files"
   ],
   "note": "Proved for exact overlaps with the functions (the quadrature is C90) and a solver that diagonalises. The gain and its sign are proved when no eigenvalue of the two overlap matrices is below 1e-6 (C92_importance_partial). Otherwise only the bounds of C92_importance_bounds hold: the claim is false as stated, the importance can be negative (C92_negative). Rounding is not modelled."
  },
  {
   "property": "C93",
   "status": "proved",
   "theorems": [
    "HelFEM.DiaJK.C93_norms",
    "HelFEM.DiaJK.C93_bound",
    "HelFEM.DiaJK.C93_check",
    "HelFEM.DiaJK.C93_concat",
    "HelFEM.DiaJK.C93_threshold",
    "HelFEM.DiaJK.C93_lookup"
   ],
   "note": "The integrals are parameters, with symmetry under exchange of the electrons as hypothesis (Swap). That thresholds bound the first number is proved for kernels that are positive semidefinite (C93_threshold). Rounding is not modelled; a quotient with zero denominator is reported as not finite."
  }
 ]
}
