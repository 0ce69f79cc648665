# Axioms per theorem

Output of `#print axioms` for every theorem named in `MANIFEST.json`.

## propext (2 theorems)

* C25: `Gaunt.C25_modified_selection`
* C32: `Ckpt.C32_rejects`

## Quot.sound (1 theorems)

* C53: `Ckpt.C53_complete`

## Quot.sound, propext (30 theorems)

* C03: `Grid.C03_find_element_returns_partial`, `Grid.C03_find_element_fuel_irrelevant`, `Grid.C03_nan_never_returns`
* C04: `Grid.C04_prim_rejects`, `Grid.C04_bad_element`
* C15: `Assembly.C15_failure`
* C18: `TwoE.C18_exchange`, `TwoE.C18_cycle`, `TwoE.C18_throws_iff`
* C26: `Sym.C26_negative_mmax`
* C27: `Sym.C27_atomic_rejects`, `Sym.C27_diatomic_rejects`
* C29: `NAO.C29_construct`
* C30: `Ckpt.C30_last_written`, `Ckpt.C30_exist`, `Ckpt.C30_unresolvable_exists`, `Ckpt.C30_wrong_shape`, `Ckpt.C30_imat_unchecked`
* C31: `Ckpt.C31_restores_partial`, `Ckpt.C31_missing_entry_leaves_open`, `Ckpt.C31_wrong_type_leaves_open`
* C32: `Ckpt.C32_unchanged`
* C34: `Elec.C34_explicit_partial`, `Elec.C34_metadata`
* C53: `Ckpt.C53_crash_partial`, `Ckpt.C53_old_value_lost`
* C87: `Cmd.C87_join`, `Cmd.C87_quote`, `Cmd.C87_int`, `Cmd.C87_bool`

## Classical.choice, Quot.sound, propext (542 theorems)

* C01: `C01_numbering`, `C01_nbf_formula_partial`, `C01_gluing`
* C02: `C02_boundary_conditions_partial`, `C02_hip_no_right_condition_removes_value`
* C04: `Grid.C04_prim_coord`, `Grid.C04_coord_prim`, `Grid.C04_ends`, `Grid.C04_gluing`, `Grid.C04_weights`
* C05: `Grid.C05_add_boundary`, `Grid.C05_history`, `Grid.C05_order_independent`
* C06: `RadialGrid.C06_grid_valid_partial`, `RadialGrid.C06_snap_noop`, `RadialGrid.C06_rejects`, `RadialGrid.C06_negative_exponent_accepted`
* C07: `RadialGrid.C07_offcenter_grid`, `RadialGrid.C07_plain_grid`, `RadialGrid.C07_extra_boundary`, `RadialGrid.C07_finite_offcenter_throws`, `RadialGrid.C07_finite_nucleus_grid_partial`, `RadialGrid.C07_finite_nucleus_overshoots`
* C08: `Factory.C08_rejects`, `Factory.C08_accepts`, `Factory.C08_roundtrip_partial`, `Factory.C08_chebyshev_roundtrip_differs`
* C09: `Poly.C09_cardinal_exists_unique`, `Poly.C09_lip_true_derivative`, `Poly.C09_lip_unsupported`, `Poly.C09_lip_physical_derivative`
* C10: `Poly.C10_lip_cardinal`, `Poly.C10_lip_reproduces`, `Poly.C10_lip_partition_of_unity`
* C11: `Poly.C11_hermite_true_derivative`, `Poly.C11_hermite_unsupported`, `Poly.C11_hermite_interpolates`, `Poly.C11_hermite_physical_derivative`
* C12: `Poly.C12_hermite_reproduces`, `Poly.C11_hermite_true_derivative`, `Poly.C11_hermite_interpolates`
* C13: `Poly.C13_legendre_ends`, `Poly.C13_legendre_unsupported`, `Poly.C13_legendre_independent`, `Poly.C43_continuity`
* C14: `Poly.C14_times_r`, `Poly.C14_at_origin`, `Poly.C14_lip_over_r`, `Poly.C14_hermite_over_r`, `Poly.C14_legendre_over_r`, `Poly.C14_rejects`, `Poly.C14_unsupported`, `Poly.C14_fe_over_r`, `Poly.C14_fe_rejects`
* C15: `Assembly.C15_matrix`, `Assembly.C15_symmetric`, `Assembly.C15_schedule_independent`, `Assembly.C15_vector`
* C16: `Assembly.C16_terminates`, `Assembly.C16_settled`
* C17: `Assembly.C17_partition`, `Assembly.C17_only_inner_set`
* C19: `TwoE.C19_symmetric`, `TwoE.C19_running`, `TwoE.C19_exact`
* C20: `TwoE.C20_coulomb`
* C21: `TwoE.C21_exchange`, `TwoE.C21_exchange_pairwise`
* C22: `TwoE.C22_coulomb_factorised`, `TwoE.C22_exchange_factorised`
* C23: `Chol.C23_residual`, `Chol.C23_equal_rows`, `Chol.C23_exact`, `Chol.C23_terminates`, `Chol.C23_signed_psd`, `Chol.C23_signed_nsd`, `Chol.C23_signed_diagonal_partial`, `Chol.C23_indefinite_fails`
* C24: `Erfc.C24_symmetric`, `Erfc.C24_no_order_error`, `Erfc.C24_branches`, `Erfc.C24_multipole`, `Erfc.C24_series_sum`, `Erfc.C24_choose_partial`, `Erfc.C24_choose_wrong`, `Erfc.C24_series_partial`, `Erfc.C24_series_wrong`
* C25: `Gaunt.C25_lookup`, `Gaunt.C25_schedule_independent`, `Gaunt.C25_modified`, `Gaunt.C25_modified_sum`
* C26: `Sym.C26_angular_basis`, `Sym.C26_diatomic_basis`
* C27: `Sym.C27_atomic`, `Sym.C27_diatomic`, `Sym.C27_diatomic_mirror`
* C28: `Orth.C28_half_inverse`, `Orth.C28_half_inverse_exists`, `Orth.C28_blockwise`
* C29: `NAO.C29_operators`, `NAO.C29_compose`, `NAO.C29_eval`, `NAO.C29_guards`, `NAO.C29_coulomb`, `NAO.C29_exchange`
* C30: `Ckpt.C30_read_back_partial`, `Ckpt.C30_nul_truncates`
* C33: `Ckpt.C33_atomic_partial`, `Ckpt.C33_diatomic_partial`, `Ckpt.C33_chebyshev_changes`
* C34: `Elec.C34_charge_multiplicity`, `Elec.C34_throws`, `Elec.C34_negative_accepted`, `Elec.C34_derive`
* C35: `Dens.C35_load`, `Dens.C35_accumulate`, `Dens.C35_mirror`, `Dens.C35_save`
* C36: `AtomDB.C36_radial_density`, `AtomDB.C36_enclosed_charge`, `AtomDB.C36_enclosed_charge_monotone`, `AtomDB.C36_total_charge`, `AtomDB.C36_hartree_screening`, `AtomDB.C36_record_range`
* C37: `ALeg.C37_first_kind`, `ALeg.C37_second_kind`, `ALeg.C37_second_kind_far`, `ALeg.C37_degree_recurrence`, `ALeg.C37_paths_agree`, `ALeg.C37_rejections`, `ALeg.C37_places`, `ALeg.C37_legendre_equation`, `ALeg.C37_second_kind_not_zero_above_degree`
* C38: `Dia.C38_index_bijection`, `Dia.C38_expand`, `Dia.C38_remove_expand`, `Dia.C38_expand_remove`, `Dia.C38_wrong_size`, `Dia.C38_trace`, `Dia.C38_dummy_to_real`, `Dia.C38_element_functions`, `Dia.C38_bf_list_m`
* C39: `Dia.C39_tables`, `Dia.C39_lookup`, `Dia.C39_coulomb_never_misses`, `Dia.C39_exchange_never_misses`, `Dia.C39_couplings_tabulated`, `Dia.C39_integral_tasks`
* C40: `Nucleus.C40_factory`, `Nucleus.C40_continuous`, `Nucleus.C40_point_outside`, `Nucleus.C40_above_point`, `Nucleus.C40_breakpoints`, `Nucleus.C40_charge_distributions`, `Nucleus.C40_gaussian_series`, `Nucleus.C40_gaussian_far`
* C41: `Radii.C41_zero`, `Radii.C41_threshold_partial`, `Radii.C41_returns_neighbour`, `Radii.C41_tolerance_is_not_the_threshold`
* C42: `Radii.C42_radius_partial`, `Radii.C42_more_outside`, `Radii.C42_out_of_range`
* C43: `Poly.C43_continuity`, `Poly.C43_constructor_accepts`
* C44: `Poly.C44_boundary_values`
* C45: `Quad.C45_lobatto_structure`, `Quad.C45_lobatto_residual`, `Quad.C45_lobatto_exact`, `Quad.C45_lobatto_rejects`
* C46: `Quad.C46_chebyshev_points`, `Quad.C46_chebyshev_substitution`, `Quad.C46_chebyshev_weight_sum_partial`, `Quad.C46_one_point_rule_wrong`, `Quad.C46_radial_rule`, `Quad.C46_converges`
* C47: `Quad.C47_compound_product`, `Quad.C47_phi_exact`, `Quad.C47_solid_angle_partial`, `Quad.C47_lobatto_sphere_exact`
* C48: `Assembly.C48_pieces`, `Assembly.C48_matrix_integrals`, `Assembly.C48_vector_integrals`, `Assembly.C48_nonfinite_weight`
* C49: `Assembly.C49_overlap_posdef`, `Assembly.C49_derivative_psd`
* C50: `Assembly.C50_auto_exact`
* C51: `Orth.C51_generalised_eigenproblem`, `Orth.C51_complete_basis`
* C52: `NAO.C52_extract_partial`, `NAO.C52_cross_l_always_throws`
* C53: `Ckpt.C53_zeros_read_back`
* C54: `Dens.C54_projection_same_basis`, `Dens.C54_projection_count`, `Dens.C54_load_partial`, `Dens.C54_wrong`
* C55: `Dens.C55_saved_partial`, `Dens.C55_wrong`
* C56: `Dens.C56_core_guess`, `Dens.C56_closed_shell`, `Dens.C56_exchange`, `Dens.C56_zeeman`, `Dens.C56_spins`, `Dens.C56_exchange_spins`
* C57: `AtomDB.C57_density_derivatives_partial`, `AtomDB.C57_nucleus_value_is_not_the_limit`
* C58: `Nucleus.C58_exact_ground_state`, `Nucleus.C58_series`, `Nucleus.C58_finite_at_origin`, `Nucleus.C58_far`
* C59: `Radii.C59_maximum`, `Radii.C59_single_maximum`
* C60: `AtomJK.C60_coulomb_exchange`, `AtomJK.C60_not_computed`, `AtomJK.C60_all_multipoles`, `AtomJK.C60_exact`, `AtomJK.C60_eri_conj`, `AtomJK.C60_eri_electrons`, `AtomJK.C60_symmetric`
* C61: `AtomJK.C61_no_self_interaction`
* C62: `AtomJK.C62_yukawa`, `AtomJK.C62_erfc`
* C63: `AtomJK.C63_last_tei`, `AtomJK.C63_last_screened`
* C64: `AtomJK.C64_exchange`, `AtomJK.C64_yukawa`, `AtomJK.C64_erfc`, `AtomJK.C64_guards`
* C65: `XC.C65_atomic_values`, `XC.C65_atomic_derivative`, `XC.C65_atomic_order`, `XC.C65_batches`, `XC.C65_no_race`, `XC.C65_unknown`, `XC.C65_atomic_spins_values`, `XC.C65_atomic_spins_derivative_partial`, `XC.C65_atomic_alpha_only`, `XC.C65_alpha_only_laplacian_ub`, `XC.C65_laplacian_only`, `XC.C65_laplacian_only_wrong`, `XC.C65_diatomic_values`, `XC.C65_diatomic_derivative`, `XC.C65_diatomic_spins_derivative`, `XC.C65_diatomic_laplacian`
* C66: `XC.C66_values`, `XC.C66_derivative`, `XC.C66_order`, `XC.C66_spins_values`, `XC.C66_spins_derivative`, `XC.C66_alpha_only`, `XC.C66_unknown`, `XC.C66_density_derivatives`
* C67: `XC.C67_azimuth`, `XC.C67_spins_azimuth`, `XC.C67_bases`, `XC.C67_values`, `XC.C67_derivative`, `XC.C67_sharing`, `XC.C67_spins_derivative`
* C68: `Harm.C68_orthonormal`, `Harm.C68_conj`, `Harm.C68_lowest`, `Harm.C68_harmonics`, `Harm.C68_derivatives_partial`, `Harm.C68_pole`, `Harm.C68_laplacian`, `Harm.C68_block`
* C69: `Harm.C69_gaunt_real`, `Harm.C69_gaunt_symmetric`, `Harm.C69_gaunt_selection`, `Harm.C69_monopole`, `Harm.C69_expansion`, `Harm.C69_table`, `Harm.C69_couplings`, `Harm.C69_modified`
* C70: `OneE.C70_overlap`, `OneE.C70_kinetic`, `OneE.C70_model_potential`, `OneE.C70_nuclear`, `OneE.C70_nuclear_central`, `OneE.C70_nuclear_throws`, `OneE.C70_dipole`, `OneE.C70_quadrupole`, `OneE.C70_magnetic`, `OneE.C70_cross_overlap`, `OneE.C70_finite_matrix`, `OneE.C70_finite_partial`, `OneE.C70_finite_drops_charges`, `OneE.C70_fem`
* C71: `OneE.C71_none`, `OneE.C71_confinement_partial`, `OneE.C71_polynomial_shift`, `OneE.C71_polynomial_shift_wrong`, `OneE.C71_nonneg`, `OneE.C71_spherical`, `OneE.C71_spherical_confinement_partial`
* C72: `DiaOne.C72_overlap`, `DiaOne.C72_cross_overlap`, `DiaOne.C72_kinetic`, `DiaOne.C72_nuclear`, `DiaOne.C72_dipole`, `DiaOne.C72_quadrupole`, `DiaOne.C72_magnetic`, `DiaOne.C72_constructor`, `DiaOne.C72_metric`, `DiaOne.C72_fem`
* C73: `DiaJK.C73_coulomb_exchange`, `DiaJK.C73_not_computed`, `DiaJK.C73_wrong_size`, `DiaJK.C73_exact`, `DiaJK.C73_all_multipoles`
* C74: `DiaQuad.C74_cached`, `DiaQuad.C74_symmetry`, `DiaQuad.C74_converges`, `DiaQuad.C74_two_elements`, `DiaQuad.C74_refinement`, `DiaQuad.C74_order`, `DiaQuad.C74_radials`, `DiaQuad.C74_cache_history`, `DiaQuad.C74_cache_values`
* C75: `SadSCF.C75_prepare`, `SadSCF.C75_prepare_yukawa`, `SadSCF.C75_prepare_erfc`, `SadSCF.C75_energy`, `SadSCF.C75_energy_unrestricted`, `SadSCF.C75_symmetric`, `SadSCF.C75_gradient`, `SadSCF.C75_gradient_unrestricted`, `SadSCF.C75_occupation`, `SadSCF.C75_occupation_alpha`, `SadSCF.C75_occupation_beta`, `SadSCF.C75_stationary`, `SadSCF.C75_stationary_unrestricted`, `SadSCF.C75_batch`
* C76: `Drv.C76_prepare`, `Drv.C76_prepare_yukawa`, `Drv.C76_prepare_erfc`, `Drv.C76_electrons`, `Drv.C76_energy`, `Drv.C76_energy_unrestricted`, `Drv.C76_symmetric`, `Drv.C76_gradient`, `Drv.C76_gradient_unrestricted`, `Drv.C76_occupation`, `Drv.C76_occupation_alpha`, `Drv.C76_occupation_beta`, `Drv.C76_stationary`, `Drv.C76_stationary_unrestricted`, `Drv.C76_nuclei`, `Drv.C76_nuclear_field_wrong`, `Drv.C76_mirror_field_wrong`, `Drv.C76_odd_default_wrong`
* C77: `Screening.C77_screening_partial`, `Screening.C77_lda`, `Screening.C77_restricted_partial`, `Screening.C77_free_atom_partial`, `Screening.C77_free_atom_zero`, `Screening.C77_cross_terms`, `Screening.C77_meta_gga`, `Screening.C77_gga_is_not_the_functional_derivative`
* C78: `Screening.C78_grid_point`, `Screening.C78_arrays`, `Screening.C78_nucleus`, `Screening.C78_wrong_size`, `Screening.C78_gradient_array_at_nucleus`
* C79: `C79_gsz`, `C79_gsz_range`, `C79_gsz_no_charge`, `C79_thomas_fermi`, `C79_sap`, `C79_sap_shape`, `C79_sap_range`, `C79_sap_nan`, `C79_sapfe`
* C80: `C80_gto`, `C80_sto`, `C80_completeness_partial`, `C80_importance_partial`, `C80_nocc`, `C80_importance_unrestricted`, `C80_importance_misses_orbital`
* C81: `SadGrid.C81_screening`, `SadGrid.C81_exact`, `SadGrid.C81_nonneg`, `SadGrid.C81_zeff`, `SadGrid.C81_point_at_the_nucleus`
* C82: `SadGrid.C82_orbitals`, `SadGrid.C82_weights`, `SadGrid.C82_tau`, `SadGrid.C82_charge`, `SadGrid.C82_coulomb`
* C83: `SadSCF.C83_hund_total`, `SadSCF.C83_hund_spin`, `SadSCF.C83_auto`, `SadSCF.C83_restricted`, `SadSCF.C83_explicit`, `SadSCF.C83_hund`, `SadSCF.C83_length`, `SadSCF.C83_fractional`, `SadSCF.C83_one_spin`, `SadSCF.C83_rest_dropped`, `SadSCF.C83_negative`, `SadSCF.C83_not_compared`, `SadSCF.C83_atoms`, `SadSCF.C83_atoms_odd`, `SadSCF.C83_past_table`
* C84: `SadSCF.C84_start`, `SadSCF.C84_start_refused`, `SadSCF.C84_result`, `SadSCF.C84_electrons`, `SadSCF.C84_same_density`, `SadSCF.C84_saved`, `SadSCF.C84_load`, `SadSCF.C84_roundtrip_partial`, `SadSCF.C84_repair`, `SadSCF.C84_overlap_wrong`, `SadSCF.C84_fraction_wrong`, `SadSCF.C84_spin_wrong`
* C85: `Aij.C85_charge`, `Aij.C85_hole`, `Aij.C85_potential`, `Aij.C85_breakpoints`, `Aij.C85_energies`, `Aij.C85_period`, `Aij.C85_grid`, `Aij.C85_vacancy_repeats`, `Aij.C85_free_atom`, `Aij.C85_negative_count`, `Aij.C85_lmax`
* C86: `Aij.C86_energy`, `Aij.C86_gradient`, `Aij.C86_energy_unrestricted`, `Aij.C86_gradient_unrestricted`, `Aij.C86_symmetric`, `Aij.C86_beta_dropped`, `Aij.C86_beta_dropped_energy`, `Aij.C86_core`, `Aij.C86_saved`, `Aij.C86_saved_alpha`, `Aij.C86_fock_roundtrip`, `Aij.C86_broken_file`, `Aij.C86_start`, `Aij.C86_start_empty`
* C87: `Cmd.C87_values`, `Cmd.C87_assign`, `Cmd.C87_two_words`, `Cmd.C87_flag`, `Cmd.C87_cluster`, `Cmd.C87_short_value`, `Cmd.C87_short_wrong`, `Cmd.C87_rest`, `Cmd.C87_dash`, `Cmd.C87_wrong`, `Cmd.C87_again`, `Cmd.C87_keeps`, `Cmd.C87_persist`, `Cmd.C87_add`, `Cmd.C87_types`, `Cmd.C87_ambiguous`, `Cmd.C87_lookup`, `Cmd.C87_check_go`, `Cmd.C87_check_help`, `Cmd.C87_check`, `Cmd.C87_line_faults`, `Cmd.C87_int_print`
* C88: `Func.C88_name`, `Func.C88_number`, `Func.C88_trailing`, `Func.C88_parse`, `Func.C88_parsed`, `Func.C88_roundtrip`, `Func.C88_minus_one`, `Func.C88_refused`, `Func.C88_kinds`, `Func.C88_share`, `Func.C88_share_old`, `Func.C88_accepted`, `Func.C88_atomic`, `Func.C88_diatomic`, `Func.C88_total`, `Func.C88_exact_exchange`, `Func.C88_aij`, `Func.C88_lost`, `Func.C88_hf_ignored`, `Func.C88_potential`
* C89: `Core.C89_orbitals`, `Core.C89_memory`, `Core.C89_converged`, `Core.C89_defined`, `Core.C89_ends`, `Core.C89_nothing_added`, `Core.C89_both_signs`, `Core.C89_half`, `Core.C89_few`
* C90: `TGrid.C90_geometry`, `TGrid.C90_volume`, `TGrid.C90_weight`, `TGrid.C90_orientation`, `TGrid.C90_projection`, `TGrid.C90_overlap`, `TGrid.C90_overlap_psd`, `TGrid.C90_mirror`, `TGrid.C90_middle`, `TGrid.C90_middle_s`, `TGrid.C90_middle_wrong`, `TGrid.C90_model_potential`, `TGrid.C90_atomic`
* C91: `Cross.C91_pairs`, `Cross.C91_assembly`, `Cross.C91_integral`, `Cross.C91_swap`, `Cross.C91_disjoint`, `Cross.C91_kinds`, `Cross.C91_singular`, `Cross.C91_limit`, `Cross.C91_overlap`, `Cross.C91_potential`, `Cross.C91_powers`, `Cross.C91_diatomic`, `Cross.C91_self`, `Cross.C91_volume`, `Cross.C91_refined`, `Cross.C91_exact`, `Cross.C91_constructed`
* C92: `Compl.C92_exponents`, `Compl.C92_batches`, `Compl.C92_completeness`, `Compl.C92_canonical`, `Compl.C92_importance0`, `Compl.C92_importance_partial`, `Compl.C92_importance_bounds`, `Compl.C92_run`, `Compl.C92_negative`, `Compl.C92_shells`, `Compl.C92_names`, `Compl.C92_files`
* C93: `DiaJK.C93_norms`, `DiaJK.C93_bound`, `DiaJK.C93_check`, `DiaJK.C93_concat`, `DiaJK.C93_threshold`, `DiaJK.C93_lookup`
