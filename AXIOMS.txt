'C01_from_lmax_linear' depends on axioms: [propext, Classical.choice, Quot.sound]
'C01_from_nside_linear' depends on axioms: [propext, Quot.sound]
'C01_layout' depends on axioms: [propext, Quot.sound]
'C01_covered' depends on axioms: [propext, Classical.choice, Quot.sound]
'C01_agrees_with_constant' depends on axioms: [propext, Classical.choice, Quot.sound]
'C02_create_ok' depends on axioms: [propext, Classical.choice, Quot.sound]
'C02_fails_iff' depends on axioms: [propext, Classical.choice, Quot.sound]
'C02_empty_band_fails' depends on axioms: [propext, Classical.choice, Quot.sound]
'C02_weights_sum_one' depends on axioms: [propext, Classical.choice, Quot.sound]
'C02_entries' depends on axioms: [propext, Classical.choice, Quot.sound]
'C02_ignored' depends on axioms: [propext, Classical.choice, Quot.sound]
'C02_rescale' depends on axioms: [propext, Classical.choice, Quot.sound]
'C03_from_edges' depends on axioms: [propext, Classical.choice, Quot.sound]
'C03_layout' depends on axioms: [propext, Quot.sound]
'C04_bin_cell_shape' depends on axioms: [propext, Classical.choice, Quot.sound]
'C04_linear' depends on axioms: [propext, Quot.sound]
'C04_local' depends on axioms: [propext, Quot.sound]
'C04_average_bounds' depends on axioms: [propext, Classical.choice, Quot.sound]
'C04_constant' depends on axioms: [propext, Classical.choice, Quot.sound]
'C04_effective_ell' depends on axioms: [propext, Classical.choice, Quot.sound]
'C05_unbin_inside' depends on axioms: [propext, Classical.choice, Quot.sound]
'C05_unbin_outside' depends on axioms: [propext, Quot.sound]
'C05_bin_unbin' depends on axioms: [propext, Classical.choice, Quot.sound]
'C05_bin_cell_unbin_cell' depends on axioms: [propext, Classical.choice, Quot.sound]
'C05_idempotent' depends on axioms: [propext, Classical.choice, Quot.sound]
'C05_overlap_counterexample' depends on axioms: [propext, Classical.choice, Quot.sound]
'C06_windows_describe_decoupling' depends on axioms: [propext, Classical.choice, Quot.sound]
'C07_master_exact' depends on axioms: [propext, Classical.choice, Quot.sound]
'C08_defaults_are_zero' depends on axioms: [propext, Quot.sound]
'C08_subtracts' depends on axioms: [propext, Classical.choice, Quot.sound]
'C08_shape' depends on axioms: [propext, Classical.choice, Quot.sound]
'C08_linear' depends on axioms: [propext, Classical.choice, Quot.sound]
'C08_full_master' depends on axioms: [propext, Classical.choice, Quot.sound]
'C08_full_master_rejects' depends on axioms: [propext, Quot.sound]
'C09_history' depends on axioms: [propext, Classical.choice, Quot.sound]
'C09_accepts' depends on axioms: [propext, Classical.choice, Quot.sound]
'C09_order_irrelevant' depends on axioms: [propext, Classical.choice, Quot.sound]
'C09_last_wins' depends on axioms: [propext, Classical.choice, Quot.sound]
'C10_round_trip_partial' depends on axioms: [propext, Classical.choice, Quot.sound]
'C10_overflow_get' depends on axioms: [propext, Quot.sound]
'C10_overflow_update' depends on axioms: [propext, Classical.choice, Quot.sound]
'C11_updates_partial' depends on axioms: [propext, Classical.choice, Quot.sound]
'C11_compute_early_partial' depends on axioms: [propext, Classical.choice, Quot.sound]
'C11_queries' depends on axioms: [propext, Classical.choice, Quot.sound]
'C11_compute_loses_workspace' depends on axioms: [propext, Classical.choice, Quot.sound]
'C11_read_loses_workspace' depends on axioms: [propext, Classical.choice, Quot.sound]
'C11_counterexample' depends on axioms: [propext, Classical.choice, Quot.sound]
'C11_heap_update_bins_partial' depends on axioms: [propext, Classical.choice, Quot.sound]
'C11_heap_recompute_loses_matrix' depends on axioms: [propext, Classical.choice, Quot.sound]
'C11_heap_read_loses_matrix' depends on axioms: [propext, Classical.choice, Quot.sound]
'C12_flag_tracks_matrix' depends on axioms: [propext, Classical.choice, Quot.sound]
'C12_protected_partial' depends on axioms: [propext, Classical.choice, Quot.sound]
'C12_update_beams_crashes' depends on axioms: [propext, Classical.choice, Quot.sound]
'C12_update_bins_crashes' depends on axioms: [propext, Classical.choice, Quot.sound]
'C12_no_other_crash_partial' depends on axioms: [propext, Classical.choice, Quot.sound]
'C13_round_trip_partial' depends on axioms: [propext, Classical.choice, Quot.sound]
'C13_fkp_without_updates_partial' depends on axioms: [propext, Classical.choice, Quot.sound]
'C13_read_without_matrix' depends on axioms: [propext, Classical.choice, Quot.sound]
'C13_fkp_loses_scale' depends on axioms: [propext, Classical.choice, Quot.sound]
'C14_same_iff' depends on axioms: [propext, Classical.choice, Quot.sound]
'C14_overlap_lost' depends on axioms: [propext, Classical.choice, Quot.sound]
'C15_norm_type_missing' depends on axioms: [propext, Classical.choice, Quot.sound]
'C15_old_layout_unreadable' depends on axioms: [propext, Classical.choice, Quot.sound]
'C16_never_incomplete' depends on axioms: [propext, Classical.choice, Quot.sound]
'C16_raises_partial' depends on axioms: [propext, Classical.choice, Quot.sound]
'C16_uninitialised' depends on axioms: [propext, Quot.sound]
'C16_old_file_lost' depends on axioms: [propext, Quot.sound]
'C17_formula' depends on axioms: [propext, Classical.choice, Quot.sound]
'C17_symmetric' depends on axioms: [propext, Classical.choice, Quot.sound]
'C17_monopole' depends on axioms: [propext, Classical.choice, Quot.sound]
'C17_linear' depends on axioms: [propext, Classical.choice, Quot.sound]
'C18_below_spin' depends on axioms: [propext, Classical.choice, Quot.sound]
'C18_mixing' depends on axioms: [propext, Classical.choice, Quot.sound]
'C19_even_spin_partial' depends on axioms: [propext, Classical.choice, Quot.sound]
'C19_odd_spin' depends on axioms: [propext, Classical.choice, Quot.sound]
'C19_odd_spin_example' depends on axioms: [propext, Classical.choice, Quot.sound]
'C20_sign' depends on axioms: [propext, Classical.choice, Quot.sound]
'C20_even_partial' depends on axioms: [propext, Classical.choice, Quot.sound]
'C20_odd_example' depends on axioms: [propext, Classical.choice, Quot.sound]
'C21_agree_partial' depends on axioms: [propext, Classical.choice, Quot.sound]
'C21_swapped' depends on axioms: [propext, Classical.choice, Quot.sound]
'C21_zero_b_ignored' depends on axioms: [propext, Classical.choice, Quot.sound]
'C21_e_zero_ignored' depends on axioms: [propext, Classical.choice, Quot.sound]
'C21_wrong' depends on axioms: [propext, Classical.choice, Quot.sound]
'C22_symmetric' depends on axioms: [propext, Classical.choice, Quot.sound]
'C22_exact_partial' depends on axioms: [propext, Classical.choice, Quot.sound]
'C22_band_wrong' depends on axioms: [propext, Classical.choice, Quot.sound]
'C22_column_wrong' depends on axioms: [propext, Classical.choice, Quot.sound]
'C23_accepts' depends on axioms: [propext, Classical.choice, Quot.sound]
'C23_in_range' depends on axioms: [propext, Classical.choice, Quot.sound]
'C24_buffer' depends on axioms: [propext, Classical.choice, Quot.sound]
'C24_buffer000' depends on axioms: [propext, Classical.choice, Quot.sound]
'C24_small_mask_fails' depends on axioms: [propext, Quot.sound]
'C24_reads_initialised_partial' depends on axioms: [propext, Classical.choice, Quot.sound]
'C24_uninitialised_read' depends on axioms: [propext, Classical.choice, Quot.sound]
'C24_table_iff' depends on axioms: [propext, Classical.choice, Quot.sound]
'C24_overread' depends on axioms: [propext, Classical.choice, Quot.sound]
'C24_table_large_mask' depends on axioms: [propext, Classical.choice, Quot.sound]
'C24_result_unaffected' depends on axioms: [propext, Classical.choice, Quot.sound]
'C25_constructor' depends on axioms: [propext, Quot.sound]
'C25_long_beam_unusable' depends on axioms: [propext, Classical.choice, Quot.sound]
'C25_usable_partial' depends on axioms: [propext, Classical.choice, Quot.sound]
'C25_update_accepts' depends on axioms: [propext, Classical.choice, Quot.sound]
'C25_update_prefix' depends on axioms: [propext, Quot.sound]
'C26_exchange' depends on axioms: [propext, Classical.choice, Quot.sound]
'C26_self' depends on axioms: [propext, Classical.choice, Quot.sound]
'C26_computed_symmetric' depends on axioms: [propext, Classical.choice, Quot.sound]
'C27_propagation' depends on axioms: [propext, Classical.choice, Quot.sound]
'C28_uninitialised' depends on axioms: [propext, Classical.choice, Quot.sound]
'C28_determined_partial' depends on axioms: [propext, Classical.choice, Quot.sound]
'C28_full_bands' depends on axioms: [propext, Classical.choice, Quot.sound]
'C29_negative_spins_accepted' depends on axioms: [propext, Classical.choice, Quot.sound]
'C29_large_crashes' depends on axioms: [propext, Classical.choice, Quot.sound]
'C29_accepts_iff' depends on axioms: [propext, Classical.choice, Quot.sound]
'C29_default' depends on axioms: [propext, Classical.choice, Quot.sound]
'C29_rejects_partial' depends on axioms: [propext, Classical.choice, Quot.sound]
'C29_missing' depends on axioms: [propext, Classical.choice, Quot.sound]
'C29_writes_inside' depends on axioms: [propext, Classical.choice, Quot.sound]
'C29_spin0_partial' depends on axioms: [propext, Classical.choice, Quot.sound]
'C29_linear' depends on axioms: [propext, Classical.choice, Quot.sound]
'C29_flat_rejects' depends on axioms: [propext, Classical.choice, Quot.sound]
'C30_round_trip' depends on axioms: [propext, Classical.choice, Quot.sound]
'C30_computed_shared' depends on axioms: [propext, Classical.choice, Quot.sound]
'C30_rewrite' depends on axioms: [propext, Classical.choice, Quot.sound]
'C30_force_spin0' depends on axioms: [propext, Classical.choice, Quot.sound]
'C30_force_rejects' depends on axioms: [propext, Classical.choice, Quot.sound]
'C30_missing_keyword' depends on axioms: [propext, Classical.choice, Quot.sound]
'C30_interrupted' depends on axioms: [propext, Classical.choice, Quot.sound]
'C30_interrupted_safe' depends on axioms: [propext, Classical.choice, Quot.sound]
'C30_failed_read' depends on axioms: [propext, Classical.choice, Quot.sound]
'C31_search_terminates' depends on axioms: [propext, Classical.choice, Quot.sound]
'C31_sizes_partial' depends on axioms: [propext, Classical.choice, Quot.sound]
'C31_smallest_rejected' depends on axioms: [propext, Classical.choice, Quot.sound]
'C31_c_sizes' depends on axioms: [propext, Classical.choice, Quot.sound]
'C32_agree' depends on axioms: [propext, Classical.choice, Quot.sound]
'C32_consecutive' depends on axioms: [propext, Classical.choice, Quot.sound]
'C32_partition' depends on axioms: [propext, Classical.choice, Quot.sound]
'C32_positions' depends on axioms: [propext, Classical.choice, Quot.sound]
'C32_ring_number' depends on axioms: [propext, Classical.choice, Quot.sound]
'C32_ring_number_mono' depends on axioms: [propext, Classical.choice, Quot.sound]
'C33_bijection' depends on axioms: [propext, Classical.choice, Quot.sound]
'C33_count' depends on axioms: [propext, Classical.choice, Quot.sound]
'C34_pad' depends on axioms: [propext, Quot.sound]
'C34_unpad_pad' depends on axioms: [propext, Classical.choice, Quot.sound]
'C34_pad_unpad' depends on axioms: [propext, Quot.sound]
'C34_wrong_size' does not depend on any axioms
'C34_reform' depends on axioms: [propext, Classical.choice, Quot.sound]
'C34_reform_twice' depends on axioms: [propext, Classical.choice, Quot.sound]
'C34_dot_reform' depends on axioms: [propext, Classical.choice, Quot.sound]
'C34_dot_bilinear' depends on axioms: [propext, Classical.choice, Quot.sound]
'C34_dot_bilinear_healpix' depends on axioms: [propext, Classical.choice, Quot.sound]
'C35_geometry_equivalence' depends on axioms: [propext, Classical.choice, Quot.sound]
'C35_field_equivalence' depends on axioms: [propext, Classical.choice, Quot.sound]
'C35_strict_implies' depends on axioms: [propext, Classical.choice, Quot.sound]
'C35_same_sky' depends on axioms: [propext, Classical.choice, Quot.sound]
'C36_orthogonal' depends on axioms: [propext, Classical.choice, Quot.sound]
'C36_invariant' depends on axioms: [propext, Classical.choice, Quot.sound]
'C36_span' depends on axioms: [propext, Classical.choice, Quot.sound]
'C36_idempotent' depends on axioms: [propext, Classical.choice, Quot.sound]
'C36_pinv_partial' depends on axioms: [propext, Classical.choice, Quot.sound]
'C36_zero_template_wrong' depends on axioms: [propext, Classical.choice, Quot.sound]
'C36_small_template_wrong' depends on axioms: [propext, Classical.choice, Quot.sound]
'C37_pinv_partial' depends on axioms: [propext, Classical.choice, Quot.sound]
'C37_zero_wrong' depends on axioms: [propext, Classical.choice, Quot.sound]
'C37_no_tolerance' depends on axioms: [propext, Classical.choice, Quot.sound]
'C38_linear' depends on axioms: [propext, Classical.choice, Quot.sound]
'C38_error' depends on axioms: [propext, Classical.choice, Quot.sound]
'C38_exact' depends on axioms: [propext, Classical.choice, Quot.sound]
'C39_catalog' depends on axioms: [propext, Classical.choice, Quot.sound]
'C39_different' depends on axioms: [propext, Classical.choice, Quot.sound]
'C39_mask' depends on axioms: [propext, Classical.choice, Quot.sound]
'C39_clustering' depends on axioms: [propext, Classical.choice, Quot.sound]
'C39_low_l_wrong' depends on axioms: [propext, Classical.choice, Quot.sound]
'C40_contained_partial' depends on axioms: [propext, Classical.choice, Quot.sound]
'C40_search_partial' depends on axioms: [propext, Classical.choice, Quot.sound]
'C40_unique' depends on axioms: [propext, Classical.choice, Quot.sound]
'C40_history_partial' depends on axioms: [propext, Classical.choice, Quot.sound]
'C40_in_range' depends on axioms: [propext, Classical.choice, Quot.sound]
'C40_empty_scheme' depends on axioms: [propext, Quot.sound]
'C40_gap_wrong' depends on axioms: [propext, Classical.choice, Quot.sound]
'C40_unsorted_wrong' depends on axioms: [propext, Classical.choice, Quot.sound]
'C40_constant' depends on axioms: [propext, Classical.choice, Quot.sound]
'C40_unbin_partial' depends on axioms: [propext, Classical.choice, Quot.sound]
'C41_same_modes_partial' depends on axioms: [propext, Classical.choice, Quot.sound]
'C41_nocut_partial' depends on axioms: [propext, Classical.choice, Quot.sound]
'C41_no_cut' depends on axioms: [propext, Classical.choice, Quot.sound]
'C41_default' depends on axioms: [propext, Classical.choice, Quot.sound]
'C41_gap_wrong' depends on axioms: [propext, Classical.choice, Quot.sound]
'C42_bounds' depends on axioms: [propext, Classical.choice, Quot.sound]
'C42_nearest_partial' depends on axioms: [propext, Classical.choice, Quot.sound]
'C42_arguments_partial' depends on axioms: [propext, Classical.choice, Quot.sound]
'C42_smooth_zeros' depends on axioms: [propext, Classical.choice, Quot.sound]
'C42_smooth_partial' depends on axioms: [propext, Classical.choice, Quot.sound]
'C42_aspect_wrong' depends on axioms: [propext, Classical.choice, Quot.sound]
'C43_query_writes' depends on axioms: [propext, Classical.choice, Quot.sound]
'C43_query_once' depends on axioms: [propext, Classical.choice, Quot.sound]
'C43_query_pixels' depends on axioms: [propext, Classical.choice, Quot.sound]
'C43_order' depends on axioms: [propext, Classical.choice, Quot.sound]
'C43_bounds_partial' depends on axioms: [propext, Classical.choice, Quot.sound]
'C43_zeros' depends on axioms: [propext, Classical.choice, Quot.sound]
'C43_arguments_partial' depends on axioms: [propext, Classical.choice, Quot.sound]
'C43_smooth_zero_scale' depends on axioms: [propext, Classical.choice, Quot.sound]
'C43_large_scale' depends on axioms: [propext, Classical.choice, Quot.sound]
'C44_flat_order_partial' depends on axioms: [propext, Classical.choice, Quot.sound]
'C44_flat_single_partial' depends on axioms: [propext, Classical.choice, Quot.sound]
'C44_spherical_seed_wrong' depends on axioms: [propext, Classical.choice, Quot.sound]
'C44_spherical_wrong' depends on axioms: [propext, Classical.choice, Quot.sound]
'C44_flat_wrong' depends on axioms: [propext, Classical.choice, Quot.sound]
'C45_fs_dot' depends on axioms: [propext, Classical.choice, Quot.sound]
'C45_he_dot' depends on axioms: [propext, Classical.choice, Quot.sound]
'C45_product' depends on axioms: [propext, Classical.choice, Quot.sound]
'C45_alm2cl' depends on axioms: [propext, Classical.choice, Quot.sound]
'C45_coupling_flat' depends on axioms: [propext, Classical.choice, Quot.sound]
'C45_coefficients' depends on axioms: [propext, Classical.choice, Quot.sound]
'C45_matrix' depends on axioms: [propext, Classical.choice, Quot.sound]
'C46_rejected_unchanged' depends on axioms: [propext, Classical.choice, Quot.sound]
'C46_accepted' depends on axioms: [propext, Classical.choice, Quot.sound]
'C46_valid_partial' depends on axioms: [propext, Classical.choice, Quot.sound]
'C46_nan_tolerance' depends on axioms: [propext, Classical.choice, Quot.sound]
'C47_only_ring' depends on axioms: [propext, Classical.choice, Quot.sound]
'C47_complete_partial' depends on axioms: [propext, Classical.choice, Quot.sound]
'C47_tight' depends on axioms: [propext, Classical.choice, Quot.sound]
'C47_wrong' depends on axioms: [propext, Classical.choice, Quot.sound]
'C47_disc_at_pole' depends on axioms: [propext, Classical.choice, Quot.sound]
'C48_inverse' depends on axioms: [propext, Classical.choice, Quot.sound]
'C48_linear' depends on axioms: [propext, Classical.choice, Quot.sound]
'C48_power' depends on axioms: [propext, Classical.choice, Quot.sound]
'C48_angle' depends on axioms: [propext, Classical.choice, Quot.sound]
'C48_real' depends on axioms: [propext, Classical.choice, Quot.sound]
'C49_construct' depends on axioms: [propext, Classical.choice, Quot.sound]
'C49_coupled' depends on axioms: [propext, Classical.choice, Quot.sound]
'C49_full_master_wrong' depends on axioms: [propext, Classical.choice, Quot.sound]
'C49_decoupled_partial' depends on axioms: [propext, Classical.choice, Quot.sound]
'C50_decouple' depends on axioms: [propext, Classical.choice, Quot.sound]
'C50_pipeline_partial' depends on axioms: [propext, Classical.choice, Quot.sound]
'C50_sequential' depends on axioms: [propext, Classical.choice, Quot.sound]
'C50_spectra_wrong' depends on axioms: [propext, Classical.choice, Quot.sound]
'C50_mask_only_rejected' depends on axioms: [propext, Classical.choice, Quot.sound]
'C50_spectra_checked' depends on axioms: [propext, Classical.choice, Quot.sound]
'C50_single_band_wrong' depends on axioms: [propext, Classical.choice, Quot.sound]
'C51_product' depends on axioms: [propext, Classical.choice, Quot.sound]
'C51_form' depends on axioms: [propext, Classical.choice, Quot.sound]
'C51_rejects' depends on axioms: [propext, Classical.choice, Quot.sound]
'C51_units_wrong' depends on axioms: [propext, Classical.choice, Quot.sound]
'C52_aniso_exchange' depends on axioms: [propext, Classical.choice, Quot.sound]
'C52_exchange_partial' depends on axioms: [propext, Classical.choice, Quot.sound]
'C52_purified_wrong' depends on axioms: [propext, Classical.choice, Quot.sound]
'C53_rotate_a1' depends on axioms: [propext, Classical.choice, Quot.sound]
'C53_rotate_a2' depends on axioms: [propext, Classical.choice, Quot.sound]
'C53_rotate_b1' depends on axioms: [propext, Classical.choice, Quot.sound]
'C53_rotate_b2' depends on axioms: [propext, Classical.choice, Quot.sound]
'C54_reflection' depends on axioms: [propext, Classical.choice, Quot.sound]
'C54_no_mixing' depends on axioms: [propext, Classical.choice, Quot.sound]
'C55_fits' depends on axioms: [propext, Classical.choice, Quot.sound]
'C55_padding_succeeds' depends on axioms: [propext, Classical.choice, Quot.sound]
'C56_nearest_partial' depends on axioms: [propext, Classical.choice, Quot.sound]
'C56_away_from_poles_partial' depends on axioms: [propext, Classical.choice, Quot.sound]
'C56_wrong' depends on axioms: [propext, Classical.choice, Quot.sound]
'C57_accepts' depends on axioms: [propext, Classical.choice, Quot.sound]
'C57_linear' depends on axioms: [propext, Classical.choice, Quot.sound]
'C57_affine' depends on axioms: [propext, Classical.choice, Quot.sound]
'C57_constant' depends on axioms: [propext, Classical.choice, Quot.sound]
'C57_inverts_partial' depends on axioms: [propext, Classical.choice, Quot.sound]
'C57_coarse_wrong' depends on axioms: [propext, Classical.choice, Quot.sound]
'C57_not_average' depends on axioms: [propext, Classical.choice, Quot.sound]
'C58_chiral_wrong' depends on axioms: [propext, Classical.choice, Quot.sound]
'C58_expectation' depends on axioms: [propext, Classical.choice, Quot.sound]
'C58_matrix_even_partial' depends on axioms: [propext, Classical.choice, Quot.sound]
'C58_matrix_symmetric_partial' depends on axioms: [propext, Classical.choice, Quot.sound]
'C58_master_partial' depends on axioms: [propext, Classical.choice, Quot.sound]
'C58_decoupled_partial' depends on axioms: [propext, Classical.choice, Quot.sound]
'C59_mean' depends on axioms: [propext, Classical.choice, Quot.sound]
'C60_mean' depends on axioms: [propext, Classical.choice, Quot.sound]
'C60_eb_wrong' depends on axioms: [propext, Classical.choice, Quot.sound]
'C60_pure_wrong' depends on axioms: [propext, Classical.choice, Quot.sound]
'C61_flat_partial' depends on axioms: [propext, Classical.choice, Quot.sound]
'C61_nyquist_wrong' depends on axioms: [propext, Classical.choice, Quot.sound]
'C61_last_wrong' depends on axioms: [propext, Classical.choice, Quot.sound]
'C62_flat_wrong' depends on axioms: [propext, Classical.choice, Quot.sound]
'C62_flat_partial' depends on axioms: [propext, Classical.choice, Quot.sound]
'C63_rectangular_wrong' depends on axioms: [propext, Classical.choice, Quot.sound]
'C63_pure_partial' depends on axioms: [propext, Classical.choice, Quot.sound]
'C63_no_leakage_partial' depends on axioms: [propext, Classical.choice, Quot.sound]
'C63_other_component' depends on axioms: [propext, Classical.choice, Quot.sound]
'C64_orthogonal_partial' depends on axioms: [propext, Classical.choice, Quot.sound]
'C64_invariant_partial' depends on axioms: [propext, Classical.choice, Quot.sound]
'C64_purified_partial' depends on axioms: [propext, Classical.choice, Quot.sound]
'C64_zero_template_wrong' depends on axioms: [propext, Classical.choice, Quot.sound]
'C65_masked_input' depends on axioms: [propext, Classical.choice, Quot.sound]
'C65_only_masked_maps' depends on axioms: [propext, Classical.choice, Quot.sound]
'C65_masked_input_purified_partial' depends on axioms: [propext, Classical.choice, Quot.sound]
'C65_flat_masked_input' depends on axioms: [propext, Classical.choice, Quot.sound]
'C65_flat_only_masked_maps' depends on axioms: [propext, Classical.choice, Quot.sound]
'C65_flat_masked_input_purified_partial' depends on axioms: [propext, Classical.choice, Quot.sound]
'C65_flat_masked_pixels' depends on axioms: [propext, Classical.choice, Quot.sound]
'C65_flat_templates' depends on axioms: [propext, Classical.choice, Quot.sound]
'C65_purified_wrong' depends on axioms: [propext, Classical.choice, Quot.sound]
'C66_cuts_wrong' depends on axioms: [propext, Classical.choice, Quot.sound]
'C66_bands_wrong' depends on axioms: [propext, Classical.choice, Quot.sound]
'C66_overflow_wrong' depends on axioms: [propext, Classical.choice, Quot.sound]
'C66_white_partial' depends on axioms: [propext, Classical.choice, Quot.sound]
'C67_exchange_partial' depends on axioms: [propext, Classical.choice, Quot.sound]
'C67_symmetric_partial' depends on axioms: [propext, Classical.choice, Quot.sound]
'C67_nyquist_wrong' depends on axioms: [propext, Classical.choice, Quot.sound]
'C68_iterations_wrong' depends on axioms: [propext, Classical.choice, Quot.sound]
'C68_accepts_iff' depends on axioms: [propext, Classical.choice, Quot.sound]
'C68_textbook' depends on axioms: [propext, Classical.choice, Quot.sound]
'C68_textbook_spin0' depends on axioms: [propext, Classical.choice, Quot.sound]
'C68_exchange' depends on axioms: [propext, Classical.choice, Quot.sound]
'C68_nonneg' depends on axioms: [propext, Classical.choice, Quot.sound]
'C68_keeps_partial' depends on axioms: [propext, Classical.choice, Quot.sound]
'C68_catalog_loses' depends on axioms: [propext, Classical.choice, Quot.sound]
'C68_mask_limit_crashes' depends on axioms: [propext, Classical.choice, Quot.sound]
'C68_default' depends on axioms: [propext, Classical.choice, Quot.sound]
'C68_covariance_exchange' depends on axioms: [propext, Classical.choice, Quot.sound]
'C69_true_nonneg' depends on axioms: [propext, Classical.choice, Quot.sound]
'C69_EE_BB_negative' depends on axioms: [propext, Classical.choice, Quot.sound]
'C69_EE_BB_wrong' depends on axioms: [propext, Classical.choice, Quot.sound]
'C69_nonneg_partial' depends on axioms: [propext, Classical.choice, Quot.sound]
'C69_scalar_nonneg' depends on axioms: [propext, Classical.choice, Quot.sound]
'C69_dipole_negative' depends on axioms: [propext, Classical.choice, Quot.sound]
'C70_dell_wrong' depends on axioms: [propext, Classical.choice, Quot.sound]
'C70_factors' depends on axioms: [propext, Classical.choice, Quot.sound]
'C70_same_partial' depends on axioms: [propext, Classical.choice, Quot.sound]
'C71_mean' depends on axioms: [propext, Classical.choice, Quot.sound]
'C72_mean_partial' depends on axioms: [propext, Classical.choice, Quot.sound]
'C72_shape' depends on axioms: [propext, Classical.choice, Quot.sound]
'C72_roundtrip_partial' depends on axioms: [propext, Classical.choice, Quot.sound]
'C72_outermost_wrong' depends on axioms: [propext, Classical.choice, Quot.sound]
'C72_varying_wrong' depends on axioms: [propext, Classical.choice, Quot.sound]
'C72_split_ring_wrong' depends on axioms: [propext, Classical.choice, Quot.sound]
'C73_roundtrip_partial' depends on axioms: [propext, Classical.choice, Quot.sound]
'C73_sides' depends on axioms: [propext, Classical.choice, Quot.sound]
'C73_master_wrong' depends on axioms: [propext, Classical.choice, Quot.sound]
'C73_side_lost' depends on axioms: [propext, Classical.choice, Quot.sound]
'C73_couple_partial' depends on axioms: [propext, Classical.choice, Quot.sound]
'C73_couple_wrong' depends on axioms: [propext, Classical.choice, Quot.sound]
'C73_interrupted' depends on axioms: [propext, Classical.choice, Quot.sound]
'C73_failed_read' depends on axioms: [propext, Classical.choice, Quot.sound]
'C73_uninitialised' depends on axioms: [propext, Classical.choice, Quot.sound]
'C74_roundtrip' depends on axioms: [propext, Classical.choice, Quot.sound]
'C74_empty' depends on axioms: [propext, Classical.choice, Quot.sound]
'C74_interrupted' depends on axioms: [propext, Classical.choice, Quot.sound]
'C74_other_kinds' depends on axioms: [propext, Classical.choice, Quot.sound]
'C75_symbols' depends on axioms: [propext, Classical.choice, Quot.sound]
'C75_exact' depends on axioms: [propext, Classical.choice, Quot.sound]
'C75_exact_spins' depends on axioms: [propext, Classical.choice, Quot.sound]
'C75_symbols_spins' depends on axioms: [propext, Classical.choice, Quot.sound]
'C75_not_allowed' depends on axioms: [propext, Classical.choice, Quot.sound]
'C75_too_small' depends on axioms: [propext, Classical.choice, Quot.sound]
'C75_rescaled' depends on axioms: [propext, Classical.choice, Quot.sound]
'C76_buffers' depends on axioms: [propext, Classical.choice, Quot.sound]
'C76_routines_agree' depends on axioms: [propext, Classical.choice, Quot.sound]
'C76_symmetric' depends on axioms: [propext, Classical.choice, Quot.sound]
'C76_zero_row' depends on axioms: [propext, Classical.choice, Quot.sound]
'C76_monopole' depends on axioms: [propext, Classical.choice, Quot.sound]
'C76_matrix' depends on axioms: [propext, Classical.choice, Quot.sound]
'C76_full_sky' depends on axioms: [propext, Classical.choice, Quot.sound]
'C76_teb_wrong' depends on axioms: [propext, Classical.choice, Quot.sound]
'C76_aniso_even' depends on axioms: [propext, Classical.choice, Quot.sound]
'C76_aniso_wrong' depends on axioms: [propext, Classical.choice, Quot.sound]
'C76_exchanged_arguments_wrong' depends on axioms: [propext, Classical.choice, Quot.sound]
'C76_toeplitz_column_wrong' depends on axioms: [propext, Classical.choice, Quot.sound]
'C76_purified_exchange_wrong' depends on axioms: [propext, Classical.choice, Quot.sound]
'C76_iterations_wrong' depends on axioms: [propext, Classical.choice, Quot.sound]
'C77_row_sum' depends on axioms: [propext, Classical.choice, Quot.sound]
'C77_row_bound' depends on axioms: [propext, Classical.choice, Quot.sound]
'C77_white_noise' depends on axioms: [propext, Classical.choice, Quot.sound]
'C77_white_mask' depends on axioms: [propext, Classical.choice, Quot.sound]
'C78_no_undefined_behaviour_partial' depends on axioms: [propext, Classical.choice, Quot.sound]
'C78_update_beams_undefined' depends on axioms: [propext, Classical.choice, Quot.sound]
'C78_update_bins_undefined' depends on axioms: [propext, Classical.choice, Quot.sound]
'C78_purified_mask_undefined' depends on axioms: [propext, Classical.choice, Quot.sound]
'C79_memory_returned_partial' depends on axioms: [propext, Classical.choice, Quot.sound]
'C79_no_leak' depends on axioms: [propext, Classical.choice, Quot.sound]
'C79_covariance_leaks' depends on axioms: [propext, Classical.choice, Quot.sound]
'C79_failed_bins_leak' depends on axioms: [propext, Classical.choice, Quot.sound]
'C80_zero_mode_wrong' depends on axioms: [propext, Classical.choice, Quot.sound]
'C80_expectation_partial' depends on axioms: [propext, Classical.choice, Quot.sound]
'C80_matrix_partial' depends on axioms: [propext, Classical.choice, Quot.sound]
'C80_master_partial' depends on axioms: [propext, Classical.choice, Quot.sound]
'C80_decoupled_partial' depends on axioms: [propext, Classical.choice, Quot.sound]
'C80_no_leakage_partial' depends on axioms: [propext, Classical.choice, Quot.sound]
'C81_mean' depends on axioms: [propext, Classical.choice, Quot.sound]
'C81_bandpowers' depends on axioms: [propext, Classical.choice, Quot.sound]
'C81_unbiased' depends on axioms: [propext, Classical.choice, Quot.sound]
'C82_default_band_limit_wrong' depends on axioms: [propext, Classical.choice, Quot.sound]
'C82_mean_partial' depends on axioms: [propext, Classical.choice, Quot.sound]
'C82_cross_mean_partial' depends on axioms: [propext, Classical.choice, Quot.sound]
'C82_unbiased_partial' depends on axioms: [propext, Classical.choice, Quot.sound]
'C83_order_wrong' depends on axioms: [propext, Classical.choice, Quot.sound]
'C83_purification_ignored' depends on axioms: [propext, Classical.choice, Quot.sound]
'C83_mean' depends on axioms: [propext, Classical.choice, Quot.sound]
'C83_workspace_partial' depends on axioms: [propext, Classical.choice, Quot.sound]
'C83_unbiased_partial' depends on axioms: [propext, Classical.choice, Quot.sound]
'C84_spin_wrong' depends on axioms: [propext, Classical.choice, Quot.sound]
'C84_full_sky' depends on axioms: [propext, Classical.choice, Quot.sound]
'C84_coupled_partial' depends on axioms: [propext, Classical.choice, Quot.sound]
'C84_bandpowers_partial' depends on axioms: [propext, Classical.choice, Quot.sound]
'C84_low_zero' depends on axioms: [propext, Classical.choice, Quot.sound]
'C85_coupled_partial' depends on axioms: [propext, Classical.choice, Quot.sound]
'C85_mixing_wrong' depends on axioms: [propext, Classical.choice, Quot.sound]
'C85_bandpowers_partial' depends on axioms: [propext, Classical.choice, Quot.sound]
'C85_default_wrong' depends on axioms: [propext, Classical.choice, Quot.sound]
'C85_EE_BB_wrong' depends on axioms: [propext, Classical.choice, Quot.sound]
'C86_beam_wrong' depends on axioms: [propext, Classical.choice, Quot.sound]
'C86_mean_partial' depends on axioms: [propext, Classical.choice, Quot.sound]
'C86_bandpowers_partial' depends on axioms: [propext, Classical.choice, Quot.sound]
'C86_unbiased_partial' depends on axioms: [propext, Classical.choice, Quot.sound]
'C87_auto_exact' depends on axioms: [propext, Classical.choice, Quot.sound]
'C87_auto_wrong' depends on axioms: [propext, Classical.choice, Quot.sound]
'C87_cross' depends on axioms: [propext, Classical.choice, Quot.sound]
'C87_shared_exact' depends on axioms: [propext, Classical.choice, Quot.sound]
'C87_shared_wrong' depends on axioms: [propext, Classical.choice, Quot.sound]
'C87_mask_exact' depends on axioms: [propext, Classical.choice, Quot.sound]
'C88_no_undefined_behaviour_partial' depends on axioms: [propext, Classical.choice, Quot.sound]
'C88_wrong_workspace_undefined' depends on axioms: [propext, Classical.choice, Quot.sound]
'C89_memory_returned_partial' depends on axioms: [propext, Classical.choice, Quot.sound]
'C89_no_leak' depends on axioms: [propext, Classical.choice, Quot.sound]
'C89_full_master_lite_leaks' depends on axioms: [propext, Classical.choice, Quot.sound]
'C89_coupled_mask_leaks' depends on axioms: [propext, Classical.choice, Quot.sound]
'C89_bias_leaks' depends on axioms: [propext, Classical.choice, Quot.sound]
'C89_gauss_leaks' depends on axioms: [propext, Classical.choice, Quot.sound]
'C89_read_leaks' depends on axioms: [propext, Classical.choice, Quot.sound]
'C90_divides' depends on axioms: [propext, Classical.choice, Quot.sound]
'C90_options' depends on axioms: [propext, Classical.choice, Quot.sound]
'C90_catalogs' depends on axioms: [propext, Classical.choice, Quot.sound]
'C90_unit_response_partial' depends on axioms: [propext, Classical.choice, Quot.sound]
'C90_response_lost' depends on axioms: [propext, Classical.choice, Quot.sound]
'C91_covariance' depends on axioms: [propext, Classical.choice, Quot.sound]
'C91_field' depends on axioms: [propext, Classical.choice, Quot.sound]
'C91_pseudo' depends on axioms: [propext, Classical.choice, Quot.sound]
'C91_bandpowers' depends on axioms: [propext, Classical.choice, Quot.sound]
'C91_windows' depends on axioms: [propext, Classical.choice, Quot.sound]
'C92_pure_wrong' depends on axioms: [propext, Classical.choice, Quot.sound]
'C92_field' depends on axioms: [propext, Classical.choice, Quot.sound]
'C92_pseudo' depends on axioms: [propext, Classical.choice, Quot.sound]
'C92_bandpowers' depends on axioms: [propext, Classical.choice, Quot.sound]
'C92_invariants' depends on axioms: [propext, Classical.choice, Quot.sound]
'C93_catalog_map_mean' depends on axioms: [propext, Classical.choice, Quot.sound]
'C93_map_catalog_mean' depends on axioms: [propext, Classical.choice, Quot.sound]
'C93_catalog_map_bandpowers' depends on axioms: [propext, Classical.choice, Quot.sound]
'C93_catalog_map_unbiased' depends on axioms: [propext, Classical.choice, Quot.sound]
'C93_map_catalog_bandpowers' depends on axioms: [propext, Classical.choice, Quot.sound]
'C93_map_catalog_unbiased' depends on axioms: [propext, Classical.choice, Quot.sound]
'C93_workspace' depends on axioms: [propext, Classical.choice, Quot.sound]
'C94_full_master_fails' depends on axioms: [propext, Classical.choice, Quot.sound]
'C94_value_error' depends on axioms: [propext, Classical.choice, Quot.sound]
'C95_field' depends on axioms: [propext, Classical.choice, Quot.sound]
'C95_pseudo' depends on axioms: [propext, Classical.choice, Quot.sound]
'C95_bandpowers' depends on axioms: [propext, Classical.choice, Quot.sound]
'C95_null' depends on axioms: [propext, Classical.choice, Quot.sound]
'C96_beam_partial' depends on axioms: [propext, Classical.choice, Quot.sound]
'C96_beam_last_wrong' depends on axioms: [propext, Classical.choice, Quot.sound]
'C96_beam_ends_wrong' depends on axioms: [propext, Classical.choice, Quot.sound]
'C96_couple_last_wrong' depends on axioms: [propext, Classical.choice, Quot.sound]
'C96_spectra_end_wrong' depends on axioms: [propext, Classical.choice, Quot.sound]
'C96_bin_cell' depends on axioms: [propext, Classical.choice, Quot.sound]
'C97_field' depends on axioms: [propext, Classical.choice, Quot.sound]
'C97_spectra' depends on axioms: [propext, Classical.choice, Quot.sound]
'C97_bandpowers' depends on axioms: [propext, Classical.choice, Quot.sound]
'C97_covariance' depends on axioms: [propext, Classical.choice, Quot.sound]
'C98_factor_wrong' depends on axioms: [propext, Classical.choice, Quot.sound]
'C98_joint_partial' depends on axioms: [propext, Classical.choice, Quot.sound]
'C98_anisotropic_wrong' depends on axioms: [propext, Classical.choice, Quot.sound]
'C99_field' depends on axioms: [propext, Classical.choice, Quot.sound]
'C99_spectra' depends on axioms: [propext, Classical.choice, Quot.sound]
'C99_bandpowers' depends on axioms: [propext, Classical.choice, Quot.sound]
'C99_covariance' depends on axioms: [propext, Classical.choice, Quot.sound]
'C100_factor_wrong' depends on axioms: [propext, Classical.choice, Quot.sound]
'C100_joint_partial' depends on axioms: [propext, Classical.choice, Quot.sound]
'C101_pure_wrong' depends on axioms: [propext, Classical.choice, Quot.sound]
'C101_field' depends on axioms: [propext, Classical.choice, Quot.sound]
'C101_spectra' depends on axioms: [propext, Classical.choice, Quot.sound]
'C101_bandpowers' depends on axioms: [propext, Classical.choice, Quot.sound]
'C101_invariants' depends on axioms: [propext, Classical.choice, Quot.sound]
'C102_covariance' depends on axioms: [propext, Classical.choice, Quot.sound]
'C103_coupled' depends on axioms: [propext, Classical.choice, Quot.sound]
'C103_decoupled' depends on axioms: [propext, Classical.choice, Quot.sound] 
'C104_field' depends on axioms: [propext, Classical.choice, Quot.sound]
'C104_pseudo' depends on axioms: [propext, Classical.choice, Quot.sound]
'C104_bandpowers' depends on axioms: [propext, Classical.choice, Quot.sound]
'C105_field' depends on axioms: [propext, Classical.choice, Quot.sound]
'C105_spectra' depends on axioms: [propext, Classical.choice, Quot.sound]
'C105_bandpowers' depends on axioms: [propext, Classical.choice, Quot.sound]
