{
 "claims": [
  {
   "property": "C01",
   "status": "proved",
   "theorems": [
    "NaMaster.C01_from_lmax_linear",
    "NaMaster.C01_from_nside_linear",
    "NaMaster.C01_layout",
    "NaMaster.C01_covered",
    "NaMaster.C01_agrees_with_constant"
   ],
   "note": "Linear binning; the C constructor of constant width gives the same scheme."
  },
  {
   "property": "C02",
   "status": "proved",
   "theorems": [
    "NaMaster.C02_create_ok",
    "NaMaster.C02_fails_iff",
    "NaMaster.C02_empty_band_fails",
    "NaMaster.C02_weights_sum_one",
    "NaMaster.C02_entries",
    "NaMaster.C02_ignored",
    "NaMaster.C02_rescale"
   ],
   "note": "Full characterisation of nmt_bins_create."
  },
  {
   "property": "C03",
   "status": "proved",
   "theorems": [
    "NaMaster.C03_from_edges",
    "NaMaster.C03_layout"
   ],
   "note": "from_edges for arbitrary (also overlapping, unsorted) edges with ell_ini<ell_end."
  },
  {
   "property": "C04",
   "status": "proved",
   "theorems": [
    "NaMaster.C04_bin_cell_shape",
    "NaMaster.C04_linear",
    "NaMaster.C04_local",
    "NaMaster.C04_average_bounds",
    "NaMaster.C04_constant",
    "NaMaster.C04_effective_ell"
   ],
   "note": "bin_cell and effective multipoles."
  },
  {
   "property": "C05",
   "status": "proved",
   "theorems": [
    "NaMaster.C05_unbin_inside",
    "NaMaster.C05_unbin_outside",
    "NaMaster.C05_bin_unbin",
    "NaMaster.C05_bin_cell_unbin_cell",
    "NaMaster.C05_idempotent",
    "NaMaster.C05_overlap_counterexample"
   ],
   "note": "Round trip for schemes without repeated multipoles, and a counterexample for overlapping bands."
  },
  {
   "property": "C06",
   "status": "proved",
   "theorems": [
    "NaMaster.C06_windows_describe_decoupling"
   ],
   "note": "For every workspace, matrix and spectrum; GSL linear algebra is a parameter assumed correct for invertible matrices."
  },
  {
   "property": "C07",
   "status": "proved",
   "theorems": [
    "NaMaster.C07_master_exact"
   ],
   "note": "For MASTER normalisation, every matrix, beams and scheme without shared multipoles, with invertible binned matrix."
  },
  {
   "property": "C08",
   "status": "proved",
   "theorems": [
    "NaMaster.C08_defaults_are_zero",
    "NaMaster.C08_subtracts",
    "NaMaster.C08_shape",
    "NaMaster.C08_linear",
    "NaMaster.C08_full_master",
    "NaMaster.C08_full_master_rejects"
   ],
   "note": "Subtraction, defaults, shapes, linearity; compute_full_master equals the sequence of steps (compute_coupled_cell, deprojection_bias and from_fields are parameters)."
  },
  {
   "property": "C09",
   "status": "proved",
   "theorems": [
    "NaMaster.C09_history",
    "NaMaster.C09_accepts",
    "NaMaster.C09_order_irrelevant",
    "NaMaster.C09_last_wins"
   ],
   "note": "State after any list of update calls equals the workspace built from the last accepted inputs, for matrices whose squared size fits a C int (see C10)."
  },
  {
   "property": "C10",
   "status": "partial",
   "theorems": [
    "NaMaster.C10_round_trip_partial",
    "NaMaster.C10_overflow_get",
    "NaMaster.C10_overflow_update"
   ],
   "note": "Proved up to 46340 rows; beyond that the claim is false: int overflow in get_mcm/update_mcm (C10_overflow_*)."
  },
  {
   "property": "C11",
   "status": "partial",
   "theorems": [
    "NaMaster.C11_updates_partial",
    "NaMaster.C11_compute_early_partial",
    "NaMaster.C11_queries",
    "NaMaster.C11_compute_loses_workspace",
    "NaMaster.C11_read_loses_workspace",
    "NaMaster.C11_counterexample",
    "NaMaster.C11_heap_update_bins_partial",
    "NaMaster.C11_heap_recompute_loses_matrix",
    "NaMaster.C11_heap_read_loses_matrix"
   ],
   "note": "Proved for the update methods, early failures of compute_coupling_matrix and queries; false for later failures of compute_coupling_matrix and for read_from (C11_*_loses_workspace, C11_counterexample). The C11_heap_* theorems say the same in the memory model of C78, for update_bins, compute_coupling_matrix and read_from in every reachable state."
  },
  {
   "property": "C12",
   "status": "partial",
   "theorems": [
    "NaMaster.C12_flag_tracks_matrix",
    "NaMaster.C12_protected_partial",
    "NaMaster.C12_update_beams_crashes",
    "NaMaster.C12_update_bins_crashes",
    "NaMaster.C12_no_other_crash_partial"
   ],
   "note": "The flag tracks the matrix and guarded methods raise, for all histories; false for update_beams/update_bins, which dereference a null pointer (C12_update_*_crashes)."
  },
  {
   "property": "C13",
   "status": "partial",
   "theorems": [
    "NaMaster.C13_round_trip_partial",
    "NaMaster.C13_fkp_without_updates_partial",
    "NaMaster.C13_read_without_matrix",
    "NaMaster.C13_fkp_loses_scale"
   ],
   "note": "Proved for MASTER normalisation and schemes without shared multipoles, for every later sequence of calls and for writing again; with FKP normalisation only for sequences without updates, since the scale is not stored (C13_fkp_loses_scale)."
  },
  {
   "property": "C14",
   "status": "proved",
   "theorems": [
    "NaMaster.C14_same_iff",
    "NaMaster.C14_overlap_lost"
   ],
   "note": "Full characterisation: read back as the same scheme exactly if no multipole is shared; for other accepted schemes the claim is false (C14_overlap_lost)."
  },
  {
   "property": "C15",
   "status": "partial",
   "theorems": [
    "NaMaster.C15_norm_type_missing",
    "NaMaster.C15_old_layout_unreadable"
   ],
   "note": "Missing normalisation keyword handled for every readable file; the older bandpower layout is never readable (C15_old_layout_unreadable)."
  },
  {
   "property": "C16",
   "status": "partial",
   "theorems": [
    "NaMaster.C16_never_incomplete",
    "NaMaster.C16_raises_partial",
    "NaMaster.C16_uninitialised",
    "NaMaster.C16_old_file_lost"
   ],
   "note": "A successful read is always of a complete file; interruption raises except at the bandpower table (C16_uninitialised); the previous file is lost (C16_old_file_lost)."
  },
  {
   "property": "C17",
   "status": "proved",
   "theorems": [
    "NaMaster.C17_formula",
    "NaMaster.C17_symmetric",
    "NaMaster.C17_monopole",
    "NaMaster.C17_linear"
   ],
   "note": "Non-purified, no Toeplitz: the elements equal the formula of CouplingSpec, are symmetric up to (2l+1), linear in the mask spectrum, and the matrix is diagonal for a monopole-only spectrum. The Wigner symbols with non-zero m are a parameter with stated symmetries."
  },
  {
   "property": "C18",
   "status": "proved",
   "theorems": [
    "NaMaster.C18_below_spin",
    "NaMaster.C18_mixing"
   ],
   "note": "For every combination of spins and purification flags that the field constructor allows."
  },
  {
   "property": "C19",
   "status": "partial",
   "theorems": [
    "NaMaster.C19_even_spin_partial",
    "NaMaster.C19_odd_spin",
    "NaMaster.C19_odd_spin_example"
   ],
   "note": "Proved for an even spin. For odd spin the TE blocks have the opposite sign to those of a separate workspace: C19_odd_spin and the concrete example."
  },
  {
   "property": "C20",
   "status": "partial",
   "theorems": [
    "NaMaster.C20_sign",
    "NaMaster.C20_even_partial",
    "NaMaster.C20_odd_example"
   ],
   "note": "The isotropic limit carries the sign (-1)^(s1+s2) relative to the isotropic matrix (C20_sign); equal when s1+s2 is even; counterexample for odd."
  },
  {
   "property": "C21",
   "status": "partial",
   "theorems": [
    "NaMaster.C21_agree_partial",
    "NaMaster.C21_swapped",
    "NaMaster.C21_zero_b_ignored",
    "NaMaster.C21_e_zero_ignored",
    "NaMaster.C21_wrong"
   ],
   "note": "The wrapper passes the 0B and E0 spectra in exchanged positions (C21_swapped, C21_wrong); the partial theorem gives the case in which that is harmless."
  },
  {
   "property": "C22",
   "status": "partial",
   "theorems": [
    "NaMaster.C22_symmetric",
    "NaMaster.C22_exact_partial",
    "NaMaster.C22_band_wrong",
    "NaMaster.C22_column_wrong"
   ],
   "note": "Exact for rows up to l_exact and the band, and symmetric, under two extra conditions: non-zero diagonal elements for the column l_exact, distance below lmax-l_toeplitz for the band. C22_band_wrong and C22_column_wrong show that the code needs them."
  },
  {
   "property": "C23",
   "status": "proved",
   "theorems": [
    "NaMaster.C23_accepts",
    "NaMaster.C23_in_range"
   ],
   "note": "Decision table of the argument check and ranges of all indices used by the Toeplitz code."
  },
  {
   "property": "C24",
   "status": "partial",
   "theorems": [
    "NaMaster.C24_buffer",
    "NaMaster.C24_buffer000",
    "NaMaster.C24_small_mask_fails",
    "NaMaster.C24_reads_initialised_partial",
    "NaMaster.C24_uninitialised_read",
    "NaMaster.C24_table_iff",
    "NaMaster.C24_overread",
    "NaMaster.C24_table_large_mask",
    "NaMaster.C24_result_unaffected"
   ],
   "note": "Accesses to the Wigner buffers are in range and initialised for every outcome of the floating-point tests when lmax<=lmax_mask. False of the code: over-read of the table of factorials (C24_overread, exact condition in C24_table_iff), buffers too small for lmax_mask<lmax, one uninitialised read for TEB with purification. C24_result_unaffected: the over-read never reaches the result."
  },
  {
   "property": "C25",
   "status": "partial",
   "theorems": [
    "NaMaster.C25_constructor",
    "NaMaster.C25_long_beam_unusable",
    "NaMaster.C25_usable_partial",
    "NaMaster.C25_update_accepts",
    "NaMaster.C25_update_prefix"
   ],
   "note": "Beams longer than lmax+1 are accepted by the constructor and make every coupling matrix computation fail (C25_long_beam_unusable); exact lengths are usable; update_beams behaves as documented."
  },
  {
   "property": "C26",
   "status": "proved",
   "theorems": [
    "NaMaster.C26_exchange",
    "NaMaster.C26_self",
    "NaMaster.C26_computed_symmetric"
   ],
   "note": "Exchange of the two spectra transposes coupled and decoupled covariances for symmetric coefficients; the coefficients computed by the code are symmetric (C26_computed_symmetric); covariance of a spectrum with itself is symmetric."
  },
  {
   "property": "C27",
   "status": "proved",
   "theorems": [
    "NaMaster.C27_propagation"
   ],
   "note": "M_a D M_b^T = B_a C B_b^T for every invertible pair of binned coupling matrices; GSL linear algebra is a parameter assumed correct for invertible matrices."
  },
  {
   "property": "C28",
   "status": "partial",
   "theorems": [
    "NaMaster.C28_uninitialised",
    "NaMaster.C28_determined_partial",
    "NaMaster.C28_full_bands"
   ],
   "note": "False of the code: elements of the coupled covariance with a multipole outside all bands are never assigned (C28_uninitialised). Determined elsewhere, and everywhere if all multipoles are in bands."
  },
  {
   "property": "C29",
   "status": "partial",
   "theorems": [
    "NaMaster.C29_negative_spins_accepted",
    "NaMaster.C29_large_crashes",
    "NaMaster.C29_accepts_iff",
    "NaMaster.C29_default",
    "NaMaster.C29_rejects_partial",
    "NaMaster.C29_missing",
    "NaMaster.C29_writes_inside",
    "NaMaster.C29_spin0_partial",
    "NaMaster.C29_linear",
    "NaMaster.C29_flat_rejects"
   ],
   "note": "Exact characterisation of accepted inputs, multilinearity, all writes inside. False of the code: negative spins pass the check of spin-0 coefficients (C29_negative_spins_accepted) and outputs of 2^32 elements or more overflow the SWIG size (C29_large_crashes)."
  },
  {
   "property": "C30",
   "status": "proved",
   "theorems": [
    "NaMaster.C30_round_trip",
    "NaMaster.C30_computed_shared",
    "NaMaster.C30_rewrite",
    "NaMaster.C30_force_spin0",
    "NaMaster.C30_force_rejects",
    "NaMaster.C30_missing_keyword",
    "NaMaster.C30_interrupted",
    "NaMaster.C30_interrupted_safe",
    "NaMaster.C30_failed_read"
   ],
   "note": "Round trip (identical outcomes in every later call, identical file when written again), force_spin0_only, missing keyword, every interruption point, failed reads. CFITSIO is modelled as in Files/Fits.lean."
  },
  {
   "property": "C31",
   "status": "partial",
   "theorems": [
    "NaMaster.C31_search_terminates",
    "NaMaster.C31_sizes_partial",
    "NaMaster.C31_smallest_rejected",
    "NaMaster.C31_c_sizes"
   ],
   "note": "Python accepts exactly 12*4^k pixels for 1<=k<=16 and the search always ends; nside=1 is wrongly rejected (C31_smallest_rejected), so the full statement (0<=k) is false. The C search is exact for 0<=k<=17."
  },
  {
   "property": "C32",
   "status": "proved",
   "theorems": [
    "NaMaster.C32_agree",
    "NaMaster.C32_consecutive",
    "NaMaster.C32_partition",
    "NaMaster.C32_positions",
    "NaMaster.C32_ring_number",
    "NaMaster.C32_ring_number_mono"
   ],
   "note": "First pixel, last pixel, length, height and first azimuth of every ring agree between python and C; rings are consecutive, partition the pixels; ring numbers invert heights and are monotone (nside<=65536)."
  },
  {
   "property": "C33",
   "status": "proved",
   "theorems": [
    "NaMaster.C33_bijection",
    "NaMaster.C33_count"
   ],
   "note": "Bijection onto 0..nelem-1 and the count, for every lmax."
  },
  {
   "property": "C34",
   "status": "proved",
   "theorems": [
    "NaMaster.C34_pad",
    "NaMaster.C34_unpad_pad",
    "NaMaster.C34_pad_unpad",
    "NaMaster.C34_wrong_size",
    "NaMaster.C34_reform",
    "NaMaster.C34_reform_twice",
    "NaMaster.C34_dot_reform",
    "NaMaster.C34_dot_bilinear",
    "NaMaster.C34_dot_bilinear_healpix"
   ],
   "note": "For one map at a time; numpy's leading dimensions are independent copies."
  },
  {
   "property": "C35",
   "status": "proved",
   "theorems": [
    "NaMaster.C35_geometry_equivalence",
    "NaMaster.C35_field_equivalence",
    "NaMaster.C35_strict_implies",
    "NaMaster.C35_same_sky"
   ],
   "note": "Also: geometries that compare equal place reordered pixels at the same sky positions. wcs_pix2world is taken to be linear (CAR)."
  },
  {
   "property": "C36",
   "status": "partial",
   "theorems": [
    "NaMaster.C36_orthogonal",
    "NaMaster.C36_invariant",
    "NaMaster.C36_span",
    "NaMaster.C36_idempotent",
    "NaMaster.C36_pinv_partial",
    "NaMaster.C36_zero_template_wrong",
    "NaMaster.C36_small_template_wrong"
   ],
   "note": "Orthogonality, template-independence of the result under adding template combinations, span and idempotence proved for fields with an exact pseudo-inverse; the code's thresholded pseudo-inverse is covered by C36_pinv_partial when the spectrum is separated from the tolerance; a zero template gives non-finite maps and a small-amplitude template is ignored (C36_zero_template_wrong, C36_small_template_wrong)."
  },
  {
   "property": "C37",
   "status": "partial",
   "theorems": [
    "NaMaster.C37_pinv_partial",
    "NaMaster.C37_zero_wrong",
    "NaMaster.C37_no_tolerance"
   ],
   "note": "Moore-Penrose conditions proved for symmetric positive semidefinite matrices with eigenvalues separated from the tolerance, given a correct eigensolver; false for the zero matrix and with zero tolerance."
  },
  {
   "property": "C38",
   "status": "proved",
   "theorems": [
    "NaMaster.C38_linear",
    "NaMaster.C38_error",
    "NaMaster.C38_exact"
   ],
   "note": "Linearity, error recursion and exactness of the iterative transform for every linear pair of transforms."
  },
  {
   "property": "C39",
   "status": "partial",
   "theorems": [
    "NaMaster.C39_catalog",
    "NaMaster.C39_different",
    "NaMaster.C39_mask",
    "NaMaster.C39_clustering",
    "NaMaster.C39_low_l_wrong"
   ],
   "note": "Proved for harmonics whose pair kernel is one at zero separation (an assumption on the transform, true by the addition theorem): spectra of catalog and clustering fields with themselves, and the mask spectrum, are sums over pairs of different sources; nothing is subtracted for different objects. False below the spin (C39_low_l_wrong)."
  },
  {
   "property": "C40",
   "status": "partial",
   "theorems": [
    "NaMaster.C40_contained_partial",
    "NaMaster.C40_search_partial",
    "NaMaster.C40_unique",
    "NaMaster.C40_history_partial",
    "NaMaster.C40_in_range",
    "NaMaster.C40_empty_scheme",
    "NaMaster.C40_gap_wrong",
    "NaMaster.C40_unsorted_wrong",
    "NaMaster.C40_constant",
    "NaMaster.C40_unbin_partial"
   ],
   "note": "The search finds the band of every multipole, for every starting guess and along every sequence of look-ups, if the bands are ordered and without gaps (C40_search_partial, C40_history_partial); with gaps it still finds the band of every multipole that lies in one (C40_contained_partial). It always ends and returns a valid index or -1. With gaps or unsorted bands the answer is wrong (C40_gap_wrong, C40_unsorted_wrong), and a scheme without bands reads outside the arrays (C40_empty_scheme)."
  },
  {
   "property": "C41",
   "status": "partial",
   "theorems": [
    "NaMaster.C41_same_modes_partial",
    "NaMaster.C41_nocut_partial",
    "NaMaster.C41_no_cut",
    "NaMaster.C41_default",
    "NaMaster.C41_gap_wrong"
   ],
   "note": "Same modes in the spectra and in the coupling matrix for bands without gaps and any excluded ranges, or any bands without excluded modes; false for bands with gaps and excluded ranges (C41_gap_wrong)."
  },
  {
   "property": "C42",
   "status": "partial",
   "theorems": [
    "NaMaster.C42_bounds",
    "NaMaster.C42_nearest_partial",
    "NaMaster.C42_arguments_partial",
    "NaMaster.C42_smooth_zeros",
    "NaMaster.C42_smooth_partial",
    "NaMaster.C42_aspect_wrong"
   ],
   "note": "The property is false for pixels that are not square: the separation uses the x pixel size along both axes (C42_aspect_wrong). Proved for square pixels: the factor is the stated function of the distance to the nearest masked pixel (C42_nearest_partial); for Smooth the mask is multiplied by the smoothed mask with the holes grown by 2.5 scales (C42_smooth_partial). Range, masked pixels and independence of the order of the parallel loop hold for all geometries (C42_bounds). Unknown types raise only for a nonzero scale (C42_arguments_partial)."
  },
  {
   "property": "C43",
   "status": "partial",
   "theorems": [
    "NaMaster.C43_query_writes",
    "NaMaster.C43_query_once",
    "NaMaster.C43_query_pixels",
    "NaMaster.C43_order",
    "NaMaster.C43_bounds_partial",
    "NaMaster.C43_zeros",
    "NaMaster.C43_arguments_partial",
    "NaMaster.C43_smooth_zero_scale",
    "NaMaster.C43_large_scale"
   ],
   "note": "Bounds for C1 and C2 (C43_bounds_partial); zeros, order independence and memory safety for all types. For Smooth the harmonic smoothing is not modelled. False for Smooth with zero scale (C43_smooth_zero_scale) and scales above 150 degrees are undefined behaviour (C43_large_scale)."
  },
  {
   "property": "C44",
   "status": "partial",
   "theorems": [
    "NaMaster.C44_flat_order_partial",
    "NaMaster.C44_flat_single_partial",
    "NaMaster.C44_spherical_seed_wrong",
    "NaMaster.C44_spherical_wrong",
    "NaMaster.C44_flat_wrong"
   ],
   "note": "synfast_flat with a non-negative seed: the maps are a function of the arguments, the seed, the distribution of rows and the order in which threads enter the parallel region (C44_flat_order_partial), and with one thread they do not depend on anything else (C44_flat_single_partial). With two threads two executions with equal seed give different maps (C44_flat_wrong), and synfast_spherical ignores a non-negative seed: it only draws from numpy's global state (C44_spherical_seed_wrong, C44_spherical_wrong)."
  },
  {
   "property": "C45",
   "status": "proved",
   "theorems": [
    "NaMaster.C45_fs_dot",
    "NaMaster.C45_he_dot",
    "NaMaster.C45_product",
    "NaMaster.C45_alm2cl",
    "NaMaster.C45_coupling_flat",
    "NaMaster.C45_coefficients",
    "NaMaster.C45_matrix"
   ],
   "note": "Every execution of the parallel loops (any number of threads, distribution of iterations, interleaving and merge order) of the scalar products, map products, flat-sky pseudo-spectra, mode counts and coupling matrices and of the curved-sky coupling coefficients and matrix gives the result of the sequential model. Exact arithmetic. Order of iterations in apodisation is in C42/C43."
  },
  {
   "property": "C46",
   "status": "partial",
   "theorems": [
    "NaMaster.C46_rejected_unchanged",
    "NaMaster.C46_accepted",
    "NaMaster.C46_valid_partial",
    "NaMaster.C46_nan_tolerance"
   ],
   "note": "Proved for all histories without a NaN tolerance; NaN is accepted (C46_nan_tolerance), so the full statement is false."
  },
  {
   "property": "C47",
   "status": "partial",
   "theorems": [
    "NaMaster.C47_only_ring",
    "NaMaster.C47_complete_partial",
    "NaMaster.C47_tight",
    "NaMaster.C47_wrong",
    "NaMaster.C47_disc_at_pole"
   ],
   "note": "Only pixels of the ring, each once, all near the range. All pixels in the range are listed if the half-width is below pi(1-1/n) or within 1e-6 of pi (C47_complete_partial). False between: only the opposite pixel is listed (C47_wrong)."
  },
  {
   "property": "C48",
   "status": "proved",
   "theorems": [
    "NaMaster.C48_inverse",
    "NaMaster.C48_linear",
    "NaMaster.C48_power",
    "NaMaster.C48_angle",
    "NaMaster.C48_real"
   ],
   "note": "The rotation to E and B is inverted by the rotation back, is linear, keeps the power, is the rotation by the spin times the angle of the mode, and keeps maps real."
  },
  {
   "property": "C49",
   "status": "partial",
   "theorems": [
    "NaMaster.C49_construct",
    "NaMaster.C49_coupled",
    "NaMaster.C49_full_master_wrong",
    "NaMaster.C49_decoupled_partial"
   ],
   "note": "Lightweight fields have the same coefficients and spectra, and decoupling them gives the result of compute_full_master for the complete fields; compute_full_master itself never returns for lightweight fields (C49_full_master_wrong)."
  },
  {
   "property": "C50",
   "status": "partial",
   "theorems": [
    "NaMaster.C50_decouple",
    "NaMaster.C50_pipeline_partial",
    "NaMaster.C50_sequential",
    "NaMaster.C50_spectra_wrong",
    "NaMaster.C50_mask_only_rejected",
    "NaMaster.C50_spectra_checked",
    "NaMaster.C50_single_band_wrong"
   ],
   "note": "False for the number of spectra: a workspace for the same maps and bands but another number of spectra is not rejected and memory outside the arrays is accessed (C50_spectra_wrong), and a single band without guess ends the process (C50_single_band_wrong). Proved: decouple_cell accepts exactly matching inputs (C50_decouple); with the right number of spectra compute_full_master_flat raises for other maps or bands and otherwise equals the documented sequence of calls (C50_pipeline_partial, C50_sequential). Fields without maps and noise or guess spectra of the wrong shape are rejected (C50_mask_only_rejected, C50_spectra_checked)."
  },
  {
   "property": "C51",
   "status": "partial",
   "theorems": [
    "NaMaster.C51_product",
    "NaMaster.C51_form",
    "NaMaster.C51_rejects",
    "NaMaster.C51_units_wrong"
   ],
   "note": "Masked maps, quadratic form and rejected inputs proved; the acceptance check compares quantities with different units, so scaling the mask changes whether it is accepted (C51_units_wrong)."
  },
  {
   "property": "C52",
   "status": "partial",
   "theorems": [
    "NaMaster.C52_aniso_exchange",
    "NaMaster.C52_exchange_partial",
    "NaMaster.C52_purified_wrong"
   ],
   "note": "Proved for the anisotropic matrix and for the isotropic one unless a purified spin-2 field meets a field of another non-zero spin, where it fails (C52_purified_wrong)."
  },
  {
   "property": "C53",
   "status": "proved",
   "theorems": [
    "NaMaster.C53_rotate_a1",
    "NaMaster.C53_rotate_a2",
    "NaMaster.C53_rotate_b1",
    "NaMaster.C53_rotate_b2"
   ],
   "note": "One theorem per field, every angle (any c, s with c^2+s^2 arbitrary), every spin."
  },
  {
   "property": "C54",
   "status": "proved",
   "theorems": [
    "NaMaster.C54_reflection",
    "NaMaster.C54_no_mixing"
   ],
   "note": "Reflection and vanishing of even-odd covariances."
  },
  {
   "property": "C55",
   "status": "proved",
   "theorems": [
    "NaMaster.C55_fits",
    "NaMaster.C55_padding_succeeds"
   ],
   "note": "Under the linear pixel-to-sky relation of CAR maps with the reference on the equator."
  },
  {
   "property": "C56",
   "status": "partial",
   "theorems": [
    "NaMaster.C56_nearest_partial",
    "NaMaster.C56_away_from_poles_partial",
    "NaMaster.C56_wrong"
   ],
   "note": "Proved for pixels whose search disc does not reach a pole, and in general if no ring meets the disc in an arc of a bad width. False otherwise: C56_wrong. Positions of pixels are assumed to be those of the ring tables."
  },
  {
   "property": "C57",
   "status": "partial",
   "theorems": [
    "NaMaster.C57_accepts",
    "NaMaster.C57_linear",
    "NaMaster.C57_affine",
    "NaMaster.C57_constant",
    "NaMaster.C57_inverts_partial",
    "NaMaster.C57_coarse_wrong",
    "NaMaster.C57_not_average"
   ],
   "note": "Linear, keeps constants and straight lines, inverts unbinning if the multipoles given sample every band; the value is the interpolated spectrum at the centre of the band and not the average over the band (C57_not_average); unbinning is not inverted if the multipoles are too coarse (C57_coarse_wrong)."
  },
  {
   "property": "C58",
   "status": "partial",
   "theorems": [
    "NaMaster.C58_chiral_wrong",
    "NaMaster.C58_expectation",
    "NaMaster.C58_matrix_even_partial",
    "NaMaster.C58_matrix_symmetric_partial",
    "NaMaster.C58_master_partial",
    "NaMaster.C58_decoupled_partial"
   ],
   "note": "The relation holds on average for the true coupling matrix (C58_expectation), and with the matrix of the library for parity-even skies or symmetric masks (C58_matrix_even_partial, C58_matrix_symmetric_partial, C58_master_partial); decoupling then gives the bandpowers on average (C58_decoupled_partial). It is false for masks without reflection symmetry: C58_chiral_wrong gives a sky and a mask. Ranges not symmetric, Nyquist modes in bands for nonzero spin, bands with gaps and purified fields are not covered."
  },
  {
   "property": "C59",
   "status": "proved",
   "theorems": [
    "NaMaster.C59_mean"
   ],
   "note": "Mean over skies whose covariance is the one implied by the guess spectra and the transforms in use (IsoCov); transforms linear with assumed shapes; pseudo-inverse exists. Isotropic masks only."
  },
  {
   "property": "C60",
   "status": "partial",
   "theorems": [
    "NaMaster.C60_mean",
    "NaMaster.C60_eb_wrong",
    "NaMaster.C60_pure_wrong"
   ],
   "note": "Proved without purification for the diagonal components and the average of the two off-diagonal ones; false for the off-diagonal components separately (C60_eb_wrong) and for purified fields (C60_pure_wrong)."
  },
  {
   "property": "C61",
   "status": "partial",
   "theorems": [
    "NaMaster.C61_flat_partial",
    "NaMaster.C61_nyquist_wrong",
    "NaMaster.C61_last_wrong"
   ],
   "note": "Proved for odd numbers of pixels along both axes, any number of fields, threads and any order of events, positive semidefinite spectra, and spectra of odd-spin fields that vanish at multipole 0 (C61_flat_partial; PowerExample shows a case with independent Gaussian numbers). For an even number of pixels along x the mode of highest wave number has half of the requested power (C61_nyquist_wrong), and from the last tabulated multipole on the simulated modes vanish (C61_last_wrong)."
  },
  {
   "property": "C62",
   "status": "partial",
   "theorems": [
    "NaMaster.C62_flat_wrong",
    "NaMaster.C62_flat_partial"
   ],
   "note": "False as stated: with two threads the generators of seed s and seed s+1 overlap, and there are executions with these seeds in which all modes of the rows of one thread agree (C62_flat_wrong). Proved part: with T threads the maps depend only on the generators with seeds seed to seed+T-1, so that simulations whose seeds differ by at least T share no generator (C62_flat_partial)."
  },
  {
   "property": "C63",
   "status": "partial",
   "theorems": [
    "NaMaster.C63_rectangular_wrong",
    "NaMaster.C63_pure_partial",
    "NaMaster.C63_no_leakage_partial",
    "NaMaster.C63_other_component"
   ],
   "note": "Proved for square pixels (C63_pure_partial: formula for every purified coefficient; C63_no_leakage_partial), and C63_other_component for all pixels. False for other pixels: C63_rectangular_wrong shows a nonzero B coefficient of a sky of one E mode, since the purification measures wave vectors in units of the inverse pixel sizes along each axis while the directions use the physical sizes. Missing: templates and masked_on_input."
  },
  {
   "property": "C64",
   "status": "partial",
   "theorems": [
    "NaMaster.C64_orthogonal_partial",
    "NaMaster.C64_invariant_partial",
    "NaMaster.C64_purified_partial",
    "NaMaster.C64_zero_template_wrong"
   ],
   "note": "Proved for templates whose matrix is separated by the tolerance (also linearly dependent ones without purification, linearly independent ones with it). C64_zero_template_wrong: templates that vanish inside the mask make all coefficients not finite."
  },
  {
   "property": "C65",
   "status": "partial",
   "theorems": [
    "NaMaster.C65_masked_input",
    "NaMaster.C65_only_masked_maps",
    "NaMaster.C65_masked_input_purified_partial",
    "NaMaster.C65_flat_masked_input",
    "NaMaster.C65_flat_only_masked_maps",
    "NaMaster.C65_flat_masked_input_purified_partial",
    "NaMaster.C65_flat_masked_pixels",
    "NaMaster.C65_flat_templates",
    "NaMaster.C65_purified_wrong"
   ],
   "note": "Proved for all fields that are not purified, curved (also anisotropic masks) and flat, and for purified ones with masks that are positive everywhere. C65_purified_wrong: with purification the signal in pixels where the mask vanishes changes the coefficients, and masked_on_input=True gives a different field (flat sky)."
  },
  {
   "property": "C66",
   "status": "partial",
   "theorems": [
    "NaMaster.C66_cuts_wrong",
    "NaMaster.C66_bands_wrong",
    "NaMaster.C66_overflow_wrong",
    "NaMaster.C66_white_partial"
   ],
   "note": "C66_white_partial: exact for spin-0 white noise with any masks, pixel covariances, gapless bands and invertible workspaces, without multipole cuts and with fewer than 2^31 pairs of modes for every two bands. False in general: cuts are ignored by the covariance (C66_cuts_wrong), the binning of the second pair is ignored (C66_bands_wrong), and the number of pairs of modes of two bands overflows an int for maps of 217x217 pixels and one band (C66_overflow_wrong)."
  },
  {
   "property": "C67",
   "status": "partial",
   "theorems": [
    "NaMaster.C67_exchange_partial",
    "NaMaster.C67_symmetric_partial",
    "NaMaster.C67_nyquist_wrong"
   ],
   "note": "C67_exchange_partial, C67_symmetric_partial: for consistent inputs and all spins when the bands contain no mode of the highest wave number along y of a grid with an even number of rows. False for such bands when a field has spin (C67_nyquist_wrong): the covariance of temperature times polarisation on a grid of 3x4 pixels, with a mask of two pixels along a diagonal, is not symmetric."
  },
  {
   "property": "C68",
   "status": "partial",
   "theorems": [
    "NaMaster.C68_iterations_wrong",
    "NaMaster.C68_accepts_iff",
    "NaMaster.C68_textbook",
    "NaMaster.C68_textbook_spin0",
    "NaMaster.C68_exchange",
    "NaMaster.C68_nonneg",
    "NaMaster.C68_keeps_partial",
    "NaMaster.C68_catalog_loses",
    "NaMaster.C68_mask_limit_crashes",
    "NaMaster.C68_default",
    "NaMaster.C68_covariance_exchange"
   ],
   "note": "Proved except that coefficients computed before are lost when a catalog field is passed (C68_catalog_loses), that a mask band limit below that of the fields ends the program (C68_mask_limit_crashes), and that the exchange needs the same n_iter_mask for all fields (C68_iterations_wrong shows that it fails otherwise)."
  },
  {
   "property": "C69",
   "status": "partial",
   "theorems": [
    "NaMaster.C69_true_nonneg",
    "NaMaster.C69_EE_BB_negative",
    "NaMaster.C69_EE_BB_wrong",
    "NaMaster.C69_nonneg_partial",
    "NaMaster.C69_scalar_nonneg",
    "NaMaster.C69_dipole_negative"
   ],
   "note": "True covariances are proved not negative for all Gaussian fields (C69_true_nonneg). The code gives EE-EE, BB-BB, TT-TT values that are not negative (C69_nonneg_partial, C69_scalar_nonneg), but a negative value for EE-BB whenever the mask mixes E and B between the two multipoles (C69_EE_BB_negative, C69_EE_BB_wrong), in particular at all multipoles if the squared mask has a dipole (C69_dipole_negative, with the true Wigner symbols)."
  },
  {
   "property": "C70",
   "status": "partial",
   "theorems": [
    "NaMaster.C70_dell_wrong",
    "NaMaster.C70_factors",
    "NaMaster.C70_same_partial"
   ],
   "note": "False of the code: values are multiplied by f_ell of both bandpowers (C70_factors, C70_dell_wrong). True for schemes with f_ell = 1 (C70_same_partial)."
  },
  {
   "property": "C71",
   "status": "proved",
   "theorems": [
    "NaMaster.C71_mean"
   ],
   "note": "C71_mean: over real numbers and exact Fourier transforms, for fields made by the constructor of NmtFieldFlat. Not for maps masked on input or lite fields (the library refuses lite fields). The guess must hold at all modes of the map, also above the largest bandpower."
  },
  {
   "property": "C72",
   "status": "partial",
   "theorems": [
    "NaMaster.C72_mean_partial",
    "NaMaster.C72_shape",
    "NaMaster.C72_roundtrip_partial",
    "NaMaster.C72_outermost_wrong",
    "NaMaster.C72_varying_wrong",
    "NaMaster.C72_split_ring_wrong"
   ],
   "note": "Proved for spectra that are constant in each ring of width min(2pi/lx, 2pi/ly) and zero in the outermost ring, for all masks, beams, spins, cuts symmetric under reflection and skies (C72_mean_partial, with the parity hypotheses of C58), the round trip with decouple_cell for bands made of whole rings (C72_roundtrip_partial), and the checks of shapes (C72_shape). The full statement is false: for every map there is a band for which the method gives 0 from the spectrum 1 (C72_outermost_wrong); spectra varying inside a ring are replaced by their mean in it (C72_varying_wrong); bandpowers of bands sharing a ring are mixed (C72_split_ring_wrong)."
  },
  {
   "property": "C73",
   "status": "partial",
   "theorems": [
    "NaMaster.C73_roundtrip_partial",
    "NaMaster.C73_sides",
    "NaMaster.C73_master_wrong",
    "NaMaster.C73_side_lost",
    "NaMaster.C73_couple_partial",
    "NaMaster.C73_couple_wrong",
    "NaMaster.C73_interrupted",
    "NaMaster.C73_failed_read",
    "NaMaster.C73_uninitialised"
   ],
   "note": "Round trip proved for decouple_cell and covariances without conditions, for compute_full_master_flat if the sides of the map survive 15 digits, for couple_cell if also no mode changes its ring. False otherwise, proved: C73_master_wrong (the workspace read is refused by compute_full_master_flat if a side has more digits), C73_couple_wrong (predicted spectra change for a map of side 1). Interrupted files are never read as workspaces, but one that ends before MCM_BINNED can crash the reader (C73_uninitialised)."
  },
  {
   "property": "C74",
   "status": "proved",
   "theorems": [
    "NaMaster.C74_roundtrip",
    "NaMaster.C74_empty",
    "NaMaster.C74_interrupted",
    "NaMaster.C74_other_kinds"
   ],
   "note": "Exact round trip, interrupted files, and refusal of the other three kinds of files."
  },
  {
   "property": "C75",
   "status": "proved",
   "theorems": [
    "NaMaster.C75_symbols",
    "NaMaster.C75_exact",
    "NaMaster.C75_exact_spins",
    "NaMaster.C75_symbols_spins",
    "NaMaster.C75_not_allowed",
    "NaMaster.C75_too_small",
    "NaMaster.C75_rescaled"
   ],
   "note": "drc3jj with its values over the reals (Wigner/Model.lean) against Racah's formula (Wigner/Spec.lean). C75_exact, C75_exact_spins: exact symbols in the range in use. C75_symbols, C75_symbols_spins: beyond it up to symbols below 10^-153. C75_rescaled: with rescaling. C75_not_allowed, C75_too_small: the other branches. Rounding is not modelled."
  },
  {
   "property": "C76",
   "status": "proved",
   "theorems": [
    "NaMaster.C76_buffers",
    "NaMaster.C76_routines_agree",
    "NaMaster.C76_symmetric",
    "NaMaster.C76_zero_row",
    "NaMaster.C76_monopole",
    "NaMaster.C76_matrix",
    "NaMaster.C76_full_sky",
    "NaMaster.C76_teb_wrong",
    "NaMaster.C76_aniso_even",
    "NaMaster.C76_aniso_wrong",
    "NaMaster.C76_exchanged_arguments_wrong",
    "NaMaster.C76_toeplitz_column_wrong",
    "NaMaster.C76_purified_exchange_wrong",
    "NaMaster.C76_iterations_wrong"
   ],
   "note": "C76_buffers links the buffers to Racah's formula, C76_symmetric, C76_zero_row, C76_monopole discharge the assumptions on the symbols made in C17, C19, C20, C52, C68, and the other theorems restate these, and the failures of C19-C22, C52, C68, without assumptions."
  },
  {
   "property": "C77",
   "status": "proved",
   "theorems": [
    "NaMaster.C77_row_sum",
    "NaMaster.C77_row_bound",
    "NaMaster.C77_white_noise",
    "NaMaster.C77_white_mask"
   ],
   "note": "C77_row_sum, C77_white_noise for rows whose coupled multipoles are all below the end of the matrix (the others lose power, C77_row_bound), C77_white_mask for constant mask spectra."
  },
  {
   "property": "C78",
   "status": "partial",
   "theorems": [
    "NaMaster.C78_no_undefined_behaviour_partial",
    "NaMaster.C78_update_beams_undefined",
    "NaMaster.C78_update_bins_undefined",
    "NaMaster.C78_purified_mask_undefined"
   ],
   "note": "Proved for all sessions (C78_no_undefined_behaviour_partial) in which purification flags belong to fields with spin, files have one lmax, and update_beams/update_bins are not called without the unbinned matrix unless the normalisation is FKP. False otherwise: C78_update_beams_undefined, C78_update_bins_undefined, C78_purified_mask_undefined. Indices into arrays of numbers are not part of this model."
  },
  {
   "property": "C79",
   "status": "partial",
   "theorems": [
    "NaMaster.C79_memory_returned_partial",
    "NaMaster.C79_no_leak",
    "NaMaster.C79_covariance_leaks",
    "NaMaster.C79_failed_bins_leak"
   ],
   "note": "C79_no_leak: bins and workspaces release everything if nothing fails. C79_memory_returned_partial: exact number of blocks that remain after any safe session (hypotheses as in C78). False in general: C79_covariance_leaks, C79_failed_bins_leak, and failed reads and covariances by the exact number."
  },
  {
   "property": "C80",
   "status": "partial",
   "theorems": [
    "NaMaster.C80_zero_mode_wrong",
    "NaMaster.C80_expectation_partial",
    "NaMaster.C80_matrix_partial",
    "NaMaster.C80_master_partial",
    "NaMaster.C80_decoupled_partial",
    "NaMaster.C80_no_leakage_partial"
   ],
   "note": "Proved for purified and unpurified fields of any spin with beams and templates: mean pseudo-spectra, coupling matrix, and the whole pipeline with deprojection bias return the bandpowers on average; without B modes in the sky the purified B spectra vanish for every sky. Missing: for purified fields, pixels that are not square, skies or masks with power at the highest wave numbers, and bands that contain multipole 0, for which it is false (C80_zero_mode_wrong); bands with modes of the highest wave number, and the bands, ranges and masks for which C58 is false."
  },
  {
   "property": "C81",
   "status": "proved",
   "theorems": [
    "NaMaster.C81_mean",
    "NaMaster.C81_bandpowers",
    "NaMaster.C81_unbiased"
   ],
   "note": "C81_mean: mean of compute_coupled_cell = couple_cell of the true spectra with the workspace made from the same fields; C81_bandpowers: mean of compute_full_master = bandpower windows times the true spectra, for both normalisations; C81_unbiased: true bandpowers for spectra constant within bands (MASTER normalisation). Wigner symbols are the actual ones (no assumption). Assumed: exact transforms for the products involved (Observed), transforms reading only m <= l <= lmax, an invertible binned matrix, correct LU solver. A purified second field is combined with a first field of spin 0 or 2 (the other spins are the subject of C52). Joint TEB, Toeplitz and anisotropic masks are not covered."
  },
  {
   "property": "C82",
   "status": "partial",
   "theorems": [
    "NaMaster.C82_default_band_limit_wrong",
    "NaMaster.C82_mean_partial",
    "NaMaster.C82_cross_mean_partial",
    "NaMaster.C82_unbiased_partial"
   ],
   "note": "Mean of the pseudo-spectrum of a catalog with itself and of two catalogs is couple_cell of the true spectrum, and decoupled bandpowers are unbiased, whatever the noise, for all sources, weights, spins and beams. Restrictions (so _partial): lmax_mask at least twice lmax, and multipoles not below the spin for the auto-spectrum (C39). For the default lmax_mask = lmax the claim is false: C82_default_band_limit_wrong has bandpowers three times too large. The harmonics satisfy the product formula by assumption (Spherical), proved for sources at the poles in the examples."
  },
  {
   "property": "C83",
   "status": "partial",
   "theorems": [
    "NaMaster.C83_order_wrong",
    "NaMaster.C83_purification_ignored",
    "NaMaster.C83_mean",
    "NaMaster.C83_workspace_partial",
    "NaMaster.C83_unbiased_partial"
   ],
   "note": "Proved for even sums of spins: the mean of the pseudo-spectra is the coupling matrix of the C library times the true spectra if the mask spectra are given in the right order (C83_mean); with the workspace as the python code makes it, this and the unbiased bandpowers hold if the spectra 0B and E0 of the masks agree (C83_workspace_partial, C83_unbiased_partial, MASTER normalisation). False in general: C83_order_wrong is a witness with a biased mean, C83_purification_ignored shows that purification of the other field does not enter the workspace. Missing: odd sums of spins (C20 shows a wrong sign), FKP normalisation."
  },
  {
   "property": "C84",
   "status": "partial",
   "theorems": [
    "NaMaster.C84_spin_wrong",
    "NaMaster.C84_full_sky",
    "NaMaster.C84_coupled_partial",
    "NaMaster.C84_bandpowers_partial",
    "NaMaster.C84_low_zero"
   ],
   "note": "Proved for Gaussian isotropic skies and masks that are 1 everywhere: the covariance of pseudo-spectra is the textbook formula (C84_full_sky), gaussian_covariance returns it for coupled=True (C84_coupled_partial) and the exact covariance of the bandpowers for coupled=False (C84_bandpowers_partial). Missing: fields with spin at multipoles below 2 or below the spin. There the property is false: with any masks the result is zero (C84_low_zero) while for spin 1 the covariance at multipole 1 is positive (C84_spin_wrong)."
  },
  {
   "property": "C85",
   "status": "partial",
   "theorems": [
    "NaMaster.C85_coupled_partial",
    "NaMaster.C85_mixing_wrong",
    "NaMaster.C85_bandpowers_partial",
    "NaMaster.C85_default_wrong",
    "NaMaster.C85_EE_BB_wrong"
   ],
   "note": "Proved for Gaussian white noise in pixels with any masks, spins 0 and 2 and a band limit of the masks of at least the sum of the multipoles: gaussian_covariance with the true spectra is exact for coupled=True unless E and B mix (C85_coupled_partial), and exact for bandpowers unless all four fields have spin (C85_bandpowers_partial). Missing: mixing of E and B. There the property is false: EE-BB is -4 times the truth for all masks (C85_mixing_wrong), with a witness of a positive covariance that is returned negative (C85_EE_BB_wrong). With the default band limit of the masks the property is false too (C85_default_wrong)."
  },
  {
   "property": "C86",
   "status": "partial",
   "theorems": [
    "NaMaster.C86_beam_wrong",
    "NaMaster.C86_mean_partial",
    "NaMaster.C86_bandpowers_partial",
    "NaMaster.C86_unbiased_partial"
   ],
   "note": "Proved if cl_guess are the spectra of the maps (true spectra times the beams). With the true spectra as documented it is false if there are beams: C86_beam_wrong, where the bandpower is twice the true one."
  },
  {
   "property": "C87",
   "status": "partial",
   "theorems": [
    "NaMaster.C87_auto_exact",
    "NaMaster.C87_auto_wrong",
    "NaMaster.C87_cross",
    "NaMaster.C87_shared_exact",
    "NaMaster.C87_shared_wrong",
    "NaMaster.C87_mask_exact"
   ],
   "note": "C87_cross: exact for two catalogs with randoms of their own, any weights, numbers and densities. C87_auto_exact, C87_shared_exact, C87_mask_exact: exact means for one catalog with itself, for two catalogs with the same randoms, and of the mask spectrum. The claim is false for these: unclustered sources have negative power wherever their density has power (C87_auto_wrong), and with shared randoms the shot noise of the randoms remains (C87_shared_wrong)."
  },
  {
   "property": "C88",
   "status": "partial",
   "theorems": [
    "NaMaster.C88_no_undefined_behaviour_partial",
    "NaMaster.C88_wrong_workspace_undefined"
   ],
   "note": "Proved for sessions in which files are consistent and a workspace given to compute_full_master_flat was made for as many spectra as its fields have. Without the latter the claim is false (C88_wrong_workspace_undefined)."
  },
  {
   "property": "C89",
   "status": "partial",
   "theorems": [
    "NaMaster.C89_memory_returned_partial",
    "NaMaster.C89_no_leak",
    "NaMaster.C89_full_master_lite_leaks",
    "NaMaster.C89_coupled_mask_leaks",
    "NaMaster.C89_bias_leaks",
    "NaMaster.C89_gauss_leaks",
    "NaMaster.C89_read_leaks"
   ],
   "note": "What remains allocated is exactly what failed calls lost (C89_memory_returned_partial); nothing remains if no call failed (C89_no_leak). Failing calls do leak: C89_full_master_lite_leaks, C89_coupled_mask_leaks, C89_bias_leaks, C89_gauss_leaks, C89_read_leaks."
  },
  {
   "property": "C90",
   "status": "partial",
   "theorems": [
    "NaMaster.C90_divides",
    "NaMaster.C90_options",
    "NaMaster.C90_catalogs",
    "NaMaster.C90_unit_response_partial",
    "NaMaster.C90_response_lost"
   ],
   "note": "Meaning of the normalisation, options, and catalogs proved in general. The unit response is proved for equal spins without purification in bands whose multipoles couple only to multipoles in the matrix, and proved false otherwise for auto-spectra (C90_response_lost)."
  },
  {
   "property": "C91",
   "status": "proved",
   "theorems": [
    "NaMaster.C91_covariance",
    "NaMaster.C91_field",
    "NaMaster.C91_pseudo",
    "NaMaster.C91_bandpowers",
    "NaMaster.C91_windows"
   ],
   "note": "Isotropic masks, maps passed without mask, positive tol_pinv, positive factors. For anisotropic masks acceptance itself depends on the units (C51_units_wrong). The binned matrices can be inverted. Coupled covariances (coupled=True) are not stated here."
  },
  {
   "property": "C92",
   "status": "proved",
   "theorems": [
    "NaMaster.C92_pure_wrong",
    "NaMaster.C92_field",
    "NaMaster.C92_pseudo",
    "NaMaster.C92_bandpowers",
    "NaMaster.C92_invariants"
   ],
   "note": "For fields with isotropic masks for which either both or none of E and B modes are purified; C92_pure_wrong shows that the claim fails for a field with purified B modes only."
  },
  {
   "property": "C93",
   "status": "proved",
   "theorems": [
    "NaMaster.C93_catalog_map_mean",
    "NaMaster.C93_map_catalog_mean",
    "NaMaster.C93_catalog_map_bandpowers",
    "NaMaster.C93_catalog_map_unbiased",
    "NaMaster.C93_map_catalog_bandpowers",
    "NaMaster.C93_map_catalog_unbiased",
    "NaMaster.C93_workspace"
   ],
   "note": "Means and bandpowers for both orders of the fields. The two theorems for bandpowers assume that the binned matrix can be inverted. FKP normalisation is an error for such pairs in the code and in the model."
  },
  {
   "property": "C94",
   "status": "partial",
   "theorems": [
    "NaMaster.C94_full_master_fails",
    "NaMaster.C94_value_error"
   ],
   "note": "False of the code: C94_full_master_fails for all arguments, C94_value_error for the documented call. For two maps the claim holds (C08_full_master); the three calls one after the other work for catalogs (C82, C93)."
  },
  {
   "property": "C95",
   "status": "proved",
   "theorems": [
    "NaMaster.C95_field",
    "NaMaster.C95_pseudo",
    "NaMaster.C95_bandpowers",
    "NaMaster.C95_null"
   ],
   "note": "For isotropic masks; the symmetries of the pixelisation are described by the laws in GridSym and FieldEnv.HasSym. Anisotropic masks and catalogs are not covered."
  },
  {
   "property": "C96",
   "status": "partial",
   "theorems": [
    "NaMaster.C96_beam_partial",
    "NaMaster.C96_beam_last_wrong",
    "NaMaster.C96_beam_ends_wrong",
    "NaMaster.C96_couple_last_wrong",
    "NaMaster.C96_spectra_end_wrong",
    "NaMaster.C96_bin_cell"
   ],
   "note": "Proved: beams away from the last multipole, bin_cell everywhere. Missing because false: the value at the last multipole (zero instead), and exceptions for samples that cannot be interpolated (the process ends)."
  },
  {
   "property": "C97",
   "status": "proved",
   "theorems": [
    "NaMaster.C97_field",
    "NaMaster.C97_spectra",
    "NaMaster.C97_bandpowers",
    "NaMaster.C97_covariance"
   ],
   "note": "Cyclic movements and turns by 180 degrees, for all parameters; the inverse FFT is assumed to commute with movements."
  },
  {
   "property": "C98",
   "status": "partial",
   "theorems": [
    "NaMaster.C98_factor_wrong",
    "NaMaster.C98_joint_partial",
    "NaMaster.C98_anisotropic_wrong"
   ],
   "note": "Holds for fields with the same mask and beam, even spin and isotropic masks (C98_joint_partial); negations: factors of masks and beams for all proportional masks and beams (C98_factor_wrong), option ignored for anisotropic masks (C98_anisotropic_wrong). Masks that are not proportional to each other are not covered."
  },
  {
   "property": "C99",
   "status": "proved",
   "theorems": [
    "NaMaster.C99_field",
    "NaMaster.C99_spectra",
    "NaMaster.C99_bandpowers",
    "NaMaster.C99_covariance"
   ],
   "note": "Positive factors for fields and bandpowers (masked_on_input divides only where the mask is positive), non-zero ones for covariances. The binned matrices can be inverted. The inverse FFT is homogeneous and the eigenvalue decomposition exact."
  },
  {
   "property": "C100",
   "status": "partial",
   "theorems": [
    "NaMaster.C100_factor_wrong",
    "NaMaster.C100_joint_partial"
   ],
   "note": "Proved for a scalar field and a field of any spin with the same mask and beam, purified or not, without noise and bias arguments. False for masks or beams that differ by a factor (C100_factor_wrong): the one product of masks and beams is used for all blocks."
  },
  {
   "property": "C101",
   "status": "proved",
   "theorems": [
    "NaMaster.C101_pure_wrong",
    "NaMaster.C101_field",
    "NaMaster.C101_spectra",
    "NaMaster.C101_bandpowers",
    "NaMaster.C101_invariants"
   ],
   "note": "For flat-sky fields for which either both or none of E and B modes are purified; C101_pure_wrong shows that the claim fails for a field with purified B modes only. A workspace passed in has to be one computed for the two fields (with any bands and cuts)."
  },
  {
   "property": "C102",
   "status": "proved",
   "theorems": [
    "NaMaster.C102_covariance"
   ],
   "note": "For workspaces computed by the model of the C routine from fields where either both or none of the E and B modes are purified (for fields with purified B modes only the coupling matrix does not commute with rotations, see C101)."
  },
  {
   "property": "C103",
   "status": "proved",
   "theorems": [
    "NaMaster.C103_coupled",
    "NaMaster.C103_decoupled"
   ],
   "note": "C103_coupled needs no field at all: any two workspaces with bands that do not repeat multipoles. C103_decoupled is for workspaces computed by the model from fields with scalar masks, of which both or none of the E and B modes are purified."
  },
  {
   "property": "C104",
   "status": "proved",
   "theorems": [
    "NaMaster.C104_field",
    "NaMaster.C104_pseudo",
    "NaMaster.C104_bandpowers"
   ],
   "note": "Both calls of the constructor succeed, for fields with scalar masks that are not masked on input and not lightweight. For purified fields one of the sets of templates is linearly independent inside the mask, since templates also act outside of it. Eigenvalue decomposition exact, pixel areas positive, transforms linear."
  },
  {
   "property": "C105",
   "status": "proved",
   "theorems": [
    "NaMaster.C105_field",
    "NaMaster.C105_spectra",
    "NaMaster.C105_bandpowers"
   ],
   "note": "Both calls of the constructor succeed, for complete fields that are not masked on input. For purified fields one of the sets of templates is linearly independent inside the mask, since templates also act outside of it. Eigenvalue decomposition exact, inverse Fourier transform linear. Coefficients are compared in the components the field has."
  }
 ]
}
