{"id": "C01", "title": "Linear binning layout", "statement": "NmtBin.from_lmax_linear(lmax,nlb) succeeds exactly when lmax-1 >= nlb >= 1; it then has exactly floor((lmax-1)/nlb) bandpowers, bandpower b holds exactly the nlb consecutive multipoles 2+b*nlb .. 2+(b+1)*nlb-1 in increasing order with weight 1/nlb each; multipoles 0 and 1 and the multipoles of an incomplete last bandpower belong to no bandpower. from_nside_linear(nside,nlb) is the same with lmax=3*nside-1. The layout coincides with the one of the C-level constant-width constructor.", "quantifier": "for every lmax>=0 and every nlb>=1", "why_tests_cant": "The boundary depends on divisibility of lmax-1 by nlb; tests use a handful of (lmax,nlb) pairs.", "anchors": ["pymaster/bins.py:_get_bpw_arrays_linear", "pymaster/bins.py:NmtBin.from_lmax_linear", "pymaster/bins.py:NmtBin.from_nside_linear", "src/nmt_bins.c:nmt_bins_constant", "src/nmt_bins.c:nmt_bins_create"]}
{"id": "C02", "title": "Bandpower construction from arrays", "statement": "NmtBin(ells,bpws,weights,f_ell,lmax) fails exactly when some bandpower between 0 and the largest used index has non-positive total weight (in particular if it is empty); otherwise bandpower b lists, in input order, exactly the entries assigned to b whose multipole is <= lmax, its weights are the input weights divided by their sum within the band (so they add up to 1), and non-positive multipole prefactors are replaced by 1. Entries with negative bandpower index or multipole above lmax have no influence, and rescaling all weights of a band by a positive constant has no effect.", "quantifier": "for all arrays of multipoles, bandpower indices, weights and prefactors, and all lmax", "why_tests_cant": "Universally quantified over arbitrary assignments, including unordered, repeated, negative and out-of-range entries.", "anchors": ["src/nmt_bins.c:nmt_bins_create", "pymaster/bins.py:NmtBin.__init__", "pymaster/namaster.i:bins_create_py"]}
{"id": "C03", "title": "Bandpowers from edges", "statement": "NmtBin.from_edges(ell_ini,ell_end) with ell_ini[b]<ell_end[b] for every b succeeds, has as many bandpowers as edges, and bandpower b consists of exactly the multipoles ell_ini[b] <= l < ell_end[b] with equal weights adding up to 1; its lmax is the largest ell_end minus 1.", "quantifier": "for every non-empty list of edge pairs with ell_ini<ell_end, overlapping or not, sorted or not", "why_tests_cant": "Unbounded number and position of edges.", "anchors": ["pymaster/bins.py:NmtBin.from_edges", "src/nmt_bins.c:nmt_bins_create"]}
{"id": "C04", "title": "bin_cell is a weighted average", "statement": "bin_cell rejects spectra whose length is not lmax+1 and otherwise returns, per bandpower, the weighted average of prefactor times spectrum. It is linear; it only depends on the multipoles inside the band; for prefactor 1 and non-negative weights it maps a constant spectrum to that constant and the result lies between the minimum and the maximum of the spectrum over the band. get_effective_ells lies between the smallest and largest multipole of the band.", "quantifier": "for every bandpower scheme accepted by the constructor and every input spectrum", "why_tests_cant": "Infinite family of schemes and spectra.", "anchors": ["src/nmt_bins.c:nmt_bin_cls", "src/nmt_bins.c:nmt_ell_eff", "pymaster/bins.py:NmtBin.bin_cell", "pymaster/bins.py:NmtBin.get_effective_ells"]}
{"id": "C05", "title": "Binning inverts unbinning", "statement": "If no multipole is assigned twice, bin_cell(unbin_cell(x)) = x for every set of bandpowers x, unbin_cell gives x_b / prefactor on each multipole of bandpower b and zero on every multipole outside all bandpowers, and unbin_cell(bin_cell(.)) is idempotent. If a multipole is assigned to two bandpowers the identity fails.", "quantifier": "for every accepted scheme without repeated multipoles and every array of bandpowers", "why_tests_cant": "Round trip over all schemes; overlapping bands break it and are accepted silently.", "anchors": ["src/nmt_bins.c:nmt_bin_cls", "src/nmt_bins.c:nmt_unbin_cls", "pymaster/namaster.i:unbin_cl", "pymaster/bins.py:NmtBin.unbin_cell"]}
{"id": "C06", "title": "Bandpower windows describe decoupling", "statement": "For a workspace whose binned coupling matrix is invertible, decouple_cell(couple_cell(cl)) equals the contraction of get_bandpower_windows() with cl over the input component and multipole.", "quantifier": "for every number of spectra, every bandpower scheme, every coupling matrix with invertible binned version, both normalisations and every cl", "why_tests_cant": "Index layouts ([component][band] against [band][component][multipole][component]) must agree for every size; tests check some sizes.", "anchors": ["src/nmt_master.c:nmt_couple_cl_l", "src/nmt_master.c:nmt_decouple_cl_l", "src/nmt_master.c:nmt_compute_bandpower_windows", "pymaster/workspaces.py:NmtWorkspace.get_bandpower_windows"]}
{"id": "C07", "title": "MASTER estimator is exact for piecewise-constant spectra", "statement": "With the MASTER normalisation, an invertible binned coupling matrix and bandpowers that do not share multipoles, decouple_cell(couple_cell(unbin_cell(x))) = x for every array of bandpowers x, with the beams included.", "quantifier": "for every coupling matrix, every beam, every scheme without shared multipoles and every x", "why_tests_cant": "This is the defining identity of the estimator; it must hold for all masks and beams.", "anchors": ["src/nmt_master.c:bin_coupling_matrix", "src/nmt_master.c:nmt_couple_cl_l", "src/nmt_master.c:nmt_decouple_cl_l", "src/nmt_bins.c:nmt_unbin_cls"]}
{"id": "C08", "title": "decouple_cell is linear in data minus noise minus bias", "statement": "decouple_cell(cl,cl_bias=b,cl_noise=n) = decouple_cell(cl-b-n), decouple_cell is linear, omitting bias and noise equals passing zeros, and compute_full_master without a given workspace equals calling the coupling matrix, coupled cell, deprojection bias and decoupling one by one.", "quantifier": "for every workspace and every array of the right shape", "why_tests_cant": "Linearity over all inputs.", "anchors": ["src/nmt_master.c:nmt_decouple_cl_l", "pymaster/workspaces.py:NmtWorkspace.decouple_cell", "pymaster/workspaces.py:compute_full_master"]}
{"id": "C09", "title": "Any history of updates equals recomputing from the last inputs", "statement": "After any sequence of successful and failed update_beams, update_bins and update_coupling_matrix calls on a computed workspace, decoupling, coupling and bandpower windows are the same as those of a workspace built directly from the last accepted coupling matrix, beams and bandpowers. In particular the order of updates of different inputs is irrelevant and repeated updates are idempotent.", "quantifier": "for every finite sequence of update calls with any arguments", "why_tests_cant": "Unbounded histories.", "anchors": ["src/nmt_master.c:nmt_update_coupling_matrix", "src/nmt_master.c:nmt_workspace_update_beams", "src/nmt_master.c:nmt_workspace_update_binning", "src/nmt_master.c:bin_coupling_matrix", "pymaster/workspaces.py:NmtWorkspace"]}
{"id": "C10", "title": "Coupling matrix layout round trip", "statement": "get_coupling_matrix followed by update_coupling_matrix with the returned array leaves every observable of the workspace unchanged, and element [ncls*l1+a, ncls*l2+b] of the returned array is the coupling from component b at l2 to component a at l1 used by couple_cell.", "quantifier": "for every lmax and number of spectra for which the number of rows squared fits the index type used; beyond that the property is claimed too", "why_tests_cant": "The flat index is computed in 32-bit arithmetic; the failing sizes need tens of GB.", "anchors": ["pymaster/namaster.i:get_mcm", "pymaster/namaster.i:update_mcm", "pymaster/workspaces.py:NmtWorkspace.get_coupling_matrix", "src/nmt_master.c:nmt_update_coupling_matrix"]}
{"id": "C11", "title": "A failed call leaves the workspace as it was", "statement": "If compute_coupling_matrix, read_from, update_beams, update_bins or update_coupling_matrix raises an exception, the workspace behaves afterwards exactly as before the call.", "quantifier": "for every workspace state and every invalid argument, at every point at which the call can fail", "why_tests_cant": "Requires enumeration of all failure points in all states.", "anchors": ["pymaster/workspaces.py:NmtWorkspace.compute_coupling_matrix", "pymaster/workspaces.py:NmtWorkspace.read_from", "pymaster/workspaces.py:NmtWorkspace.update_beams", "pymaster/workspaces.py:NmtWorkspace.update_bins"]}
{"id": "C12", "title": "Workspaces without the unbinned matrix are protected", "statement": "On a workspace read with read_unbinned_MCM=False every method that needs the unbinned coupling matrix raises an exception instead of accessing it; all other methods work. The flag tracks the presence of the matrix through every history of calls.", "quantifier": "for every finite history of constructor, compute, read (full or without the unbinned matrix), update and query calls, successful or failing", "why_tests_cant": "Unbounded histories; the failing access is undefined behaviour in C.", "anchors": ["pymaster/workspaces.py:NmtWorkspace.check_unbinned", "pymaster/workspaces.py:NmtWorkspace.update_beams", "pymaster/workspaces.py:NmtWorkspace.update_bins", "src/nmt_master.c:bin_coupling_matrix", "src/nmt_io.c:nmt_workspace_read_fits"]}
{"id": "C13", "title": "Workspace file round trip", "statement": "A workspace written with write_to and read back with read_from is indistinguishable from the original under every later sequence of calls (couple, decouple, windows, updates, queries).", "quantifier": "for every workspace that can be computed and every later sequence of calls", "why_tests_cant": "Quantifies over all workspaces and all continuations; information missing in the file only shows in some continuations.", "anchors": ["src/nmt_io.c:nmt_workspace_write_fits", "src/nmt_io.c:nmt_workspace_read_fits", "src/nmt_io.c:nmt_workspace_info_tohdus", "src/nmt_io.c:nmt_workspace_info_fromhdus"]}
{"id": "C14", "title": "Bandpower scheme file round trip", "statement": "The bandpowers stored with a workspace are read back as the same scheme: same number of bands, same multipoles, weights and prefactors in each band.", "quantifier": "for every scheme accepted by the NmtBin constructor", "why_tests_cant": "The file has one row per multipole, so schemes with repeated multipoles cannot be represented; tests use contiguous bands.", "anchors": ["src/nmt_io.c:nmt_binning_scheme_tohdus", "src/nmt_io.c:nmt_binning_scheme_fromhdus"]}
{"id": "C15", "title": "Older workspace files stay readable", "statement": "A workspace file without the normalisation keyword is read as a MASTER-normalised workspace, and a file with the older bandpower layout is read to the same workspace as a file with the present one.", "quantifier": "for every file content in the older formats", "why_tests_cant": "Needs files of all older versions; the fallback depends on the error status carried between calls.", "anchors": ["src/nmt_io.c:nmt_workspace_info_fromhdus", "src/nmt_io.c:nmt_binning_scheme_fromhdus_old", "src/nmt_io.c:nmt_workspace_read_fits"]}
{"id": "C16", "title": "Interrupted writes", "statement": "If write_to is interrupted after any number of file units, reading the file either raises an exception or yields the complete workspace; and a previously existing file of that name is either intact or replaced by the complete new one.", "quantifier": "for every crash point and every workspace", "why_tests_cant": "Crash points cannot be enumerated by unit tests.", "anchors": ["src/nmt_io.c:nmt_workspace_write_fits", "src/nmt_io.c:nmt_workspace_read_fits", "pymaster/workspaces.py:NmtWorkspace.write_to"]}
{"id": "C17", "title": "Coupling coefficients are symmetric and linear in the mask spectrum", "statement": "Without purification the coupling matrix divided by (2*l'+1) is symmetric under exchange of the two multipoles (component by component), depends linearly on the mask pseudo-spectrum, and is diagonal with equal entries pattern when the mask spectrum only has a monopole.", "quantifier": "for all spins, band limits, mask spectra and any function with the symmetries of Wigner 3j symbols", "why_tests_cant": "All masks and band limits at once.", "anchors": ["src/nmt_master.c:nmt_compute_master_coefficients", "src/nmt_master.c:nmt_compute_coupling_matrix"]}
{"id": "C18", "title": "Coupling matrix vanishes below the spin", "statement": "Rows and columns of the coupling matrix with multipole smaller than the largest spin involved vanish for 0-s and s-s spectra; the matrix only has EE-BB and EB-BE mixing for s-s spectra without anisotropic weights, and no E-B mixing for 0-s spectra.", "quantifier": "for all spins, masks and multipoles", "why_tests_cant": "All sizes and spins.", "anchors": ["src/nmt_master.c:nmt_compute_master_coefficients", "src/nmt_master.c:nmt_compute_coupling_matrix"]}
{"id": "C19", "title": "Joint T-E-B workspace equals separate workspaces", "statement": "The 7-component coupling matrix built with is_teb=True has as diagonal blocks exactly the matrices of the 0-0, 0-s and s-s workspaces built from the same masks, beams and purification flags, and zero elsewhere, without Toeplitz approximation.", "quantifier": "for every mask, beam, spin, band limit, purification choice", "why_tests_cant": "Index bookkeeping over all sizes; spins and purification flags must be dispatched consistently.", "anchors": ["src/nmt_master.c:nmt_compute_coupling_matrix", "src/nmt_master.c:nmt_compute_master_coefficients"]}
{"id": "C20", "title": "Isotropic limit of anisotropic weights", "statement": "The coupling matrix computed by the anisotropic-mask code with vanishing spin-2s mask spectra equals the coupling matrix computed by the isotropic code from the same scalar mask spectrum.", "quantifier": "for all spins, masks and band limits", "why_tests_cant": "Tests only use even spins.", "anchors": ["src/nmt_master.c:nmt_compute_coupling_matrix_anisotropic", "src/nmt_master.c:nmt_compute_coupling_matrix"]}
{"id": "C21", "title": "Anisotropic mask spectra reach the right coefficients", "statement": "compute_coupling_matrix with anisotropic masks uses the cross-spectrum between the scalar mask of field 1 and the B-mode of the spin-2s mask of field 2 for the 0b coupling, and that of the E-mode of field 1's spin-2s mask with field 2's scalar mask for the e0 coupling.", "quantifier": "for all mask spectra", "why_tests_cant": "The arguments are nine arrays of equal type and length; exchanging two of them is invisible to type checks and for symmetric inputs.", "anchors": ["pymaster/namaster.i:comp_coupling_matrix_anisotropic", "src/nmt_master.c:nmt_compute_coupling_matrix_anisotropic", "pymaster/workspaces.py:NmtWorkspace.compute_coupling_matrix"]}
{"id": "C22", "title": "Toeplitz approximation: which elements are exact", "statement": "With Toeplitz parameters accepted by the argument check, the coupling coefficients stay symmetric, all memory accesses are in range, diagonal elements are exact, elements with the smaller multipole <= l_exact are exact, and elements within dl_band of the diagonal up to l_toeplitz are exact.", "quantifier": "for all lmax and accepted (l_toeplitz,l_exact,dl_band) and all masks", "why_tests_cant": "Regions overlap depending on the parameters; tests use one set.", "anchors": ["src/nmt_master.c:lend_toeplitz", "src/nmt_master.c:populate_toeplitz", "src/nmt_master.c:nmt_compute_master_coefficients"]}
{"id": "C23", "title": "Toeplitz argument check", "statement": "Toeplitz arguments are accepted exactly if l_toeplitz<=0, or no field is purified and 0<l_exact<=l_toeplitz<lmax and 0<=dl_band<lmax; otherwise a ValueError is raised; accepted arguments never lead the C code outside its arrays.", "quantifier": "for all integers l_toeplitz,l_exact,dl_band,lmax and both fields' mask band limits", "why_tests_cant": "All integer quadruples.", "anchors": ["pymaster/utils.py:_toeplitz_sanity", "src/nmt_master.c:toeplitz_wrap", "src/nmt_master.c:populate_toeplitz"]}
{"id": "C24", "title": "Wigner-symbol tables are accessed in range", "statement": "While computing coupling coefficients for two fields with band limit lmax and mask band limit lmax_mask accepted by the field constructor, no access leaves the log-factorial table or the output buffers for Wigner symbols.", "quantifier": "for all lmax, lmax_mask >= 1 and all pairs of multipoles <= lmax", "why_tests_cant": "Out-of-range reads whose result is discarded are invisible to functional tests.", "anchors": ["src/utils.c:drc3jj_000", "src/utils.c:drc3jj", "src/nmt_master.c:nmt_compute_master_coefficients"]}
{"id": "C25", "title": "Accepted beams can be used", "statement": "A field whose beam is accepted by the constructor (at least lmax+1 elements) can be used to compute a coupling matrix, and only the first lmax+1 elements matter. update_beams accepts exactly beams with at least lmax+1 elements.", "quantifier": "for every beam length", "why_tests_cant": "All lengths.", "anchors": ["pymaster/field.py:NmtField.__init__", "pymaster/namaster.i:comp_coupling_matrix", "pymaster/workspaces.py:NmtWorkspace.update_beams"]}
{"id": "C26", "title": "Gaussian covariance is symmetric under exchange of the two power spectra", "statement": "gaussian_covariance for (a1,a2;b1,b2) is the transpose of gaussian_covariance for (b1,b2;a1,a2) with the correspondingly transposed input spectra and exchanged workspaces, coupled and decoupled; in particular the covariance of a spectrum with itself is a symmetric matrix.", "quantifier": "for all spins, bandpowers, coupling coefficients symmetric in the two multipoles, input spectra, and invertible coupling matrices", "why_tests_cant": "All component combinations and sizes.", "anchors": ["src/nmt_covar.c:nmt_compute_gaussian_covariance", "src/nmt_covar.c:nmt_compute_gaussian_covariance_coupled", "src/utils.c:cov_get_coupling_pair_index", "pymaster/covariance.py:gaussian_covariance"]}
{"id": "C27", "title": "Decoupled covariance is the propagated coupled covariance", "statement": "The decoupled covariance equals M_a^-1 B_a C B_b^T M_b^-T where C is the coupled covariance returned with coupled=True and B bins with the bandpower weights.", "quantifier": "for all inputs for which both calls succeed", "why_tests_cant": "Two separately written loops and index layouts have to agree for all sizes.", "anchors": ["src/nmt_covar.c:nmt_compute_gaussian_covariance", "src/nmt_covar.c:nmt_compute_gaussian_covariance_coupled"]}
{"id": "C28", "title": "Coupled covariance is fully defined", "statement": "Every element of the matrix returned by gaussian_covariance(coupled=True) is determined by the arguments.", "quantifier": "for every scheme, and every content of freshly allocated memory", "why_tests_cant": "Uninitialised memory is often zero in tests.", "anchors": ["src/nmt_covar.c:nmt_compute_gaussian_covariance_coupled", "pymaster/namaster.i:comp_gaussian_covariance_coupled"]}
{"id": "C29", "title": "Covariance is bilinear in the input spectra and rejects inconsistent input", "statement": "gaussian_covariance is linear in each pair of input spectra, and raises an exception when spins, workspaces, coupling coefficients (spin-0 only, too small lmax) or spectrum shapes are inconsistent; when it does not raise all accesses are in range. On the flat sky the coupling coefficients are computed only for fields on the same grid of pixels and bandpowers with the same number of bands, and there is an exception otherwise.", "quantifier": "for all inputs", "why_tests_cant": "All combinations of spins and sizes.", "anchors": ["pymaster/covariance.py:gaussian_covariance", "src/nmt_covar.c:nmt_compute_gaussian_covariance", "pymaster/covariance.py:NmtCovarianceWorkspaceFlat.compute_coupling_coefficients", "src/nmt_covar_flat.c:nmt_covar_workspace_flat_init"]}
{"id": "C30", "title": "Covariance workspace file round trip", "statement": "A covariance workspace written and read back yields identical covariances; reading with force_spin0_only gives identical spin-0 covariances and rejects others; files without the spin-0 keyword are read as full ones; a truncated file never yields wrong coefficients.", "quantifier": "for every covariance workspace, every later call and every truncation point", "why_tests_cant": "All workspaces and truncation points.", "anchors": ["src/nmt_io.c:nmt_covar_workspace_write_fits", "src/nmt_io.c:nmt_covar_workspace_read_fits"]}
{"id": "C31", "title": "HEALPix map size recognition", "statement": "A one-dimensional map is accepted exactly if its length is 12*4^k for some 0<=k<=16, and then nside=2^k.", "quantifier": "for every map length", "why_tests_cant": "All lengths; termination of the search.", "anchors": ["pymaster/utils.py:NmtMapInfo.__init__", "pymaster/namaster.i:apomask"]}
{"id": "C32", "title": "HEALPix rings tile the sphere", "statement": "The rings 1..4*nside-1 used for harmonic transforms, ring queries and apodisation partition the pixels 0..12*nside^2-1 into consecutive ranges of the right sizes, and python and C code agree on the first pixel and length of every ring; every pixel belongs to exactly one ring.", "quantifier": "for every nside>=1", "why_tests_cant": "All resolutions.", "anchors": ["pymaster/utils.py:_SHTInfo.from_nside", "src/healpix_extra.c:get_ring_limits", "src/healpix_extra.c:he_in_ring"]}
{"id": "C33", "title": "Harmonic coefficient indexing", "statement": "The map (l,m) -> mstart[m]+l is a bijection from 0<=m<=l<=lmax onto 0..nelem-1 with nelem=(lmax+1)(lmax+2)/2.", "quantifier": "for every lmax>=0", "why_tests_cant": "All band limits.", "anchors": ["pymaster/utils.py:NmtAlmInfo"]}
{"id": "C34", "title": "Map reshaping loses nothing", "statement": "For CAR maps, un-padding a padded map returns it, padding only adds zeros; the axis flips are involutive and permute pixels, and weighted dot products of maps are symmetric bilinear and unaffected by the order of pixels.", "quantifier": "for every map shape and content and both flips", "why_tests_cant": "All shapes.", "anchors": ["pymaster/utils.py:_SHTInfo.pad_map", "pymaster/utils.py:_SHTInfo.unpad_map", "pymaster/utils.py:NmtMapInfo.reform_map", "pymaster/utils.py:_SHTInfo.dot_map"]}
{"id": "C35", "title": "Field compatibility is an equivalence relation", "statement": "Compatibility of map geometries is reflexive, symmetric and transitive; strict compatibility of fields implies non-strict compatibility, and both are symmetric and transitive.", "quantifier": "for all map geometries and fields, including catalog fields without geometry", "why_tests_cant": "All triples.", "anchors": ["pymaster/utils.py:NmtMapInfo.__eq__", "pymaster/field.py:NmtField.is_compatible"]}
{"id": "C36", "title": "Deprojection removes templates exactly", "statement": "After template deprojection the masked map is orthogonal to every masked template, is unchanged by a second deprojection, is zero for maps in the span of the templates, and does not depend on any linear combination of templates added to the input map.", "quantifier": "for every number of templates (linearly dependent or not), every map and mask, every pseudo-inverse satisfying M M+ M = M", "why_tests_cant": "All maps and templates.", "anchors": ["pymaster/field.py:NmtField.__init__", "src/nmt_field_flat.c:nmt_field_flat_alloc", "pymaster/utils.py:moore_penrose_pinvh"]}
{"id": "C37", "title": "Pseudo-inverse of the template matrix", "statement": "For every real symmetric positive semi-definite template matrix and 0<tol<=1 the returned matrix is finite, symmetric, and inverts the matrix on the eigenvectors with eigenvalue at least tol times the largest and vanishes on the others.", "quantifier": "for all template matrices, including zero ones", "why_tests_cant": "All spectra of eigenvalues.", "anchors": ["pymaster/utils.py:moore_penrose_pinvh", "src/utils.c:moore_penrose_pinv"]}
{"id": "C38", "title": "Iterative harmonic transform", "statement": "map2alm with n iterations is linear, returns the exact coefficients of a band-limited map if analysis inverts synthesis, and in general leaves the error (1-AB)^(n+1) applied to the true coefficients.", "quantifier": "for every linear analysis/synthesis pair, every n and every map", "why_tests_cant": "All n and operators.", "anchors": ["pymaster/utils.py:map2alm"]}
{"id": "C39", "title": "Catalog shot noise is the self-pair contribution", "statement": "For catalog fields correlated with themselves, the noise subtracted by compute_coupled_cell (and from the mask spectrum in the coupling matrix) is exactly the contribution of pairs of a source with itself, so the result only contains distinct pairs; for different field objects nothing is subtracted.", "quantifier": "for every catalog, weights and field values, any pair kernel normalised to one at zero separation", "why_tests_cant": "All catalogs.", "anchors": ["pymaster/field.py:NmtFieldCatalog", "pymaster/workspaces.py:compute_coupled_cell", "pymaster/workspaces.py:NmtWorkspace.compute_coupling_matrix"]}
{"id": "C40", "title": "Flat-sky band search", "statement": "Any flat-sky multipole is assigned to the bandpower whose interval contains it and to none if there is none, independently of what was looked up before.", "quantifier": "for every list of bandpower intervals accepted by NmtBinFlat, every multipole and every starting hint (history)", "why_tests_cant": "All histories of look-ups.", "anchors": ["src/nmt_bins_flat.c:nmt_bins_flat_search_fast", "src/nmt_bins_flat.c:nmt_unbin_cls_flat"]}
{"id": "C41", "title": "Flat-sky: the same modes enter spectra and coupling matrices", "statement": "The set of Fourier modes entering each bandpower in the pseudo-spectrum and in the coupling matrix are the same, and the default ell cuts remove no mode.", "quantifier": "for every map size, bandpower scheme without gaps and ell-cut range", "why_tests_cant": "All grids and cuts.", "anchors": ["src/nmt_master_flat.c:nmt_compute_coupling_matrix_flat", "src/flatsky_utils.c:fs_alm2cl"]}
{"id": "C42", "title": "Flat-sky apodisation follows the distance to the nearest masked pixel", "statement": "C1/C2 apodisation of a flat map multiplies each pixel by a function in [0,1] of its true (physical) distance to the nearest masked pixel, equal to 1 beyond the apodisation scale; masked pixels stay masked; scale zero returns the mask; negative scales and unknown types raise.", "quantifier": "for every mask, map geometry (any pixel aspect ratio) and scale", "why_tests_cant": "Only square pixels are tested.", "anchors": ["src/nmt_mask_flat.c:apodize_mask_CX", "src/nmt_mask_flat.c:nmt_apodize_mask_flat", "pymaster/utils.py:mask_apodization_flat"]}
{"id": "C43", "title": "Curved-sky apodisation bounds", "statement": "mask_apodization returns a mask between 0 and the input mask for non-negative masks, zero where the input is zero, does not depend on the order in which pixels are processed, never writes outside its pixel list, returns the input for zero scale and raises for negative scale or unknown type.", "quantifier": "for every mask, scale, type, and processing schedule", "why_tests_cant": "All schedules and masks.", "anchors": ["src/nmt_mask.c:apodize_mask_CX", "src/nmt_mask.c:apodize_mask_smooth_binary", "src/nmt_mask.c:nmt_apodize_mask", "src/healpix_extra.c:he_query_disc"]}
{"id": "C44", "title": "Seeds make simulations reproducible", "statement": "synfast_spherical and synfast_flat called twice with the same non-negative seed and the same other arguments return the same maps.", "quantifier": "for every state of the global random generator, every thread schedule and number of threads", "why_tests_cant": "Schedules and global state are not controlled in tests.", "anchors": ["pymaster/utils.py:synfast_spherical", "pymaster/utils.py:synfast_flat", "src/flatsky_utils.c:fs_synalm"]}
{"id": "C45", "title": "Parallel reductions do not depend on the schedule", "statement": "Quantities accumulated by parallel loops (flat-sky map products, pseudo-spectra, mode counts, coupling matrices) are the same for every distribution of iterations over threads and every order in which threads merge their partial results (in exact arithmetic).", "quantifier": "for every number of threads, distribution and merge order", "why_tests_cant": "All schedules.", "anchors": ["src/flatsky_utils.c:fs_map_dot", "src/flatsky_utils.c:fs_alm2cl", "src/nmt_master_flat.c:nmt_compute_coupling_matrix_flat"]}
{"id": "C46", "title": "Global parameters stay valid", "statement": "After any sequence of calls to the parameter setters, successful or not, the SHT calculator is one of the supported ones, default iteration counts are non-negative and the pseudo-inverse tolerance lies in [0,1]; a rejected call changes nothing.", "quantifier": "for every sequence of calls with any arguments", "why_tests_cant": "Unbounded histories.", "anchors": ["pymaster/utils.py:set_sht_calculator", "pymaster/utils.py:set_n_iter_default", "pymaster/utils.py:set_tol_pinv_default"]}
{"id": "C47", "title": "Ring query returns the pixels in the azimuth range", "statement": "The list of pixels of a ring within an azimuth range contains only pixels of that ring, each once, and all pixels whose centre is in the range.", "quantifier": "for every nside, ring, central azimuth and half-width", "why_tests_cant": "Wrap-around cases near the poles.", "anchors": ["src/healpix_extra.c:he_in_ring"]}
{"id": "C48", "title": "Flat-sky E/B rotation is invertible", "statement": "The transformations between Q/U and E/B Fourier coefficients are inverse to each other, linear and preserve total power for every spin.", "quantifier": "for every spin, mode direction and coefficients", "why_tests_cant": "All modes and spins.", "anchors": ["src/flatsky_utils.c:qu2eb", "src/flatsky_utils.c:eb2qu"]}
{"id": "C49", "title": "Lightweight fields can be used for standard power spectra", "statement": "compute_full_master gives for fields constructed with lite=True the same result as for the same fields with lite=False, when no bias computation is requested.", "quantifier": "for all pairs of fields", "why_tests_cant": "All combinations of field options.", "anchors": ["pymaster/workspaces.py:compute_full_master", "pymaster/workspaces.py:deprojection_bias", "pymaster/field.py:NmtField"]}
{"id": "C50", "title": "Flat-sky full pipeline rejects mismatched workspaces", "statement": "compute_full_master_flat and decouple_cell of flat workspaces raise an exception whenever the workspace was not built for the number of spectra, bandpowers or map size of the input, a field has no maps, or noise or guess spectra have the wrong shape; otherwise all accesses are in range.", "quantifier": "for all pairs of fields and workspaces", "why_tests_cant": "Out-of-range accesses are undefined behaviour.", "anchors": ["src/nmt_master_flat.c:nmt_compute_power_spectra_flat", "pymaster/namaster.i:comp_pspec_flat", "pymaster/workspaces.py:compute_full_master_flat"]}
{"id": "C51", "title": "Anisotropic masks act as symmetric weight matrices", "statement": "For a field with anisotropic mask, the masked maps are the product of the maps with the symmetric matrix ((mask,mask_12),(mask_12,mask_22)); when the check for positive-definiteness passes with tolerance zero the quadratic form is non-negative up to trace sign.", "quantifier": "for all masks and maps", "why_tests_cant": "All masks.", "anchors": ["pymaster/field.py:NmtField.__init__"]}
{"id": "C52", "title": "Exchanging the two fields permutes components", "statement": "The coupling matrix computed for the fields (f2, f1) is that computed for (f1, f2) with the EB and BE components exchanged in rows and columns, for the isotropic coupling matrix (with or without Toeplitz approximation, with or without purification) and for the anisotropic one.", "quantifier": "for all spins, purification flags, mask spectra, lmax, lmax_mask and Toeplitz parameters", "why_tests_cant": "Tests compare a few pairs of spins at one resolution, none with a purified field next to a field of another non-zero spin.", "anchors": ["src/nmt_master.c:nmt_compute_master_coefficients", "src/nmt_master.c:nmt_compute_coupling_matrix_anisotropic", "pymaster/workspaces.py:NmtWorkspace.compute_coupling_matrix"]}
{"id": "C53", "title": "Covariances follow rotations of the polarisation angle", "statement": "If the E/B components of any one of the four fields are rotated by an angle in the input spectra, the coupled Gaussian covariance returned is that of the original spectra with the same rotation applied to the index of that field; so covariances do not depend on the convention for the polarisation angle of any field.", "quantifier": "for all spins, rotation angles, coefficients, spectra and multipoles in bands", "why_tests_cant": "The property relates two calls at every angle; it involves every entry of the index tables, most of which tests with vanishing EB and TB never weigh.", "anchors": ["src/nmt_covar.c:nmt_compute_gaussian_covariance_coupled", "src/utils.c:cov_get_coupling_pair_index", "pymaster/covariance.py:gaussian_covariance"]}
{"id": "C54", "title": "Covariances respect reflection parity", "statement": "Changing the sign of B in all four fields changes the sign of exactly those coupled covariances that involve an odd number of B components; if the input spectra have no EB, BE or TB, covariances between a parity-even and a parity-odd spectrum vanish.", "quantifier": "for all spins, coefficients, spectra and multipoles in bands", "why_tests_cant": "Tests compare to simulations with noise of a few per cent, for which a small parity-violating term is invisible.", "anchors": ["src/nmt_covar.c:nmt_compute_gaussian_covariance_coupled", "src/utils.c:cov_get_coupling_pair_index"]}
{"id": "C55", "title": "Accepted CAR geometries fit on the sphere", "statement": "For every CAR geometry accepted when a map is created, a full ring of pixels is at least as long as the rows of the map and the rows of the map are rows of the full-sky grid, so that padding a map never fails and every row receives its quadrature weight.", "quantifier": "for every WCS and map shape that passes the checks", "why_tests_cant": "The checks use tolerances (0.01 of a pixel, 0.1 of a pixel) that interact; tests try a few exact geometries.", "anchors": ["pymaster/utils.py:NmtMapInfo.__init__", "pymaster/utils.py:_SHTInfo.from_rectpix", "pymaster/utils.py:_SHTInfo.pad_map"]}
{"id": "C56", "title": "Apodisation depends on the nearest masked pixel", "statement": "With C1 or C2 apodisation a pixel farther than the scale from every masked pixel keeps its value, and any other pixel is multiplied by the documented function of its separation from the nearest masked pixel.", "quantifier": "for every mask, scale, resolution and pixel", "why_tests_cant": "Depends on the list of candidate pixels being complete around every pixel, including those near the poles; tests compare a few pixels of one mask.", "anchors": ["src/nmt_mask.c:apodize_mask_CX", "src/healpix_extra.c:he_query_disc", "src/healpix_extra.c:he_in_ring", "pymaster/utils.py:mask_apodization"]}
{"id": "C57", "title": "Flat-sky binning is linear, keeps constants and inverts unbinning", "statement": "On the flat sky, binning a spectrum given at a list of multipoles is linear in the spectrum, returns a constant spectrum unchanged, and inverts unbinning; the value in a band is the average of the spectrum over the band.", "quantifier": "for every list of increasing multipoles, every spectrum, every scheme of bands", "why_tests_cant": "Binning interpolates at a single multipole, so tests with smooth spectra and fine sampling pass whatever the claim about averages.", "anchors": ["pymaster/bins.py:NmtBinFlat.bin_cell", "pymaster/bins.py:NmtBinFlat.unbin_cell", "src/nmt_bins_flat.c:nmt_bin_cls_flat", "src/nmt_bins_flat.c:nmt_unbin_cls_flat"]}
{"id": "C58", "title": "Flat-sky MASTER relation", "statement": "For statistically homogeneous random skies with spectra constant within the bands and vanishing outside, masked and transformed, the mean of the computed coupled pseudo-spectrum equals the coupling matrix of the workspace applied to the bandpowers (times the beams), so that decoupling gives the bandpowers on average.", "quantifier": "for every pair of masks, map geometry, spins, beams, bands, ranges of excluded multipoles, and every homogeneous random sky", "why_tests_cant": "A statement about an expectation over skies; tests average simulations for one or two masks, and errors that vanish for symmetric masks or average out cannot be seen.", "anchors": ["src/nmt_master_flat.c:nmt_compute_coupling_matrix_flat", "src/flatsky_utils.c:fs_alm2cl", "src/flatsky_utils.c:fs_map2alm", "pymaster/workspaces.py:NmtWorkspaceFlat"]}
{"id": "C59", "title": "Deprojection bias is the mean effect of removing templates", "statement": "For isotropic fields (purified or not) built with contaminant templates, the array returned by deprojection_bias for the true spectra equals exactly the mean of the coupled spectra of the fields with templates minus the mean of the coupled spectra of the same fields without templates, for every pair of components and multipole.", "quantifier": "for every pair of fields, masks, sets of templates (also linearly dependent), spins, numbers of iterations, purification settings, random skies whose covariance is the one implied by the guess spectra through the transforms in use", "why_tests_cant": "A statement about an expectation over skies; tests compare with stored numbers or average a few simulations within tolerance, so a wrong sign or missing cross term at the noise level is invisible.", "anchors": ["pymaster/workspaces.py:deprojection_bias", "pymaster/field.py:NmtField", "pymaster/workspaces.py:compute_coupled_cell"]}
{"id": "C60", "title": "Deprojection bias of inhomogeneous noise", "statement": "For a field containing uncorrelated noise with the given local variance, the array returned by uncorr_noise_deprojection_bias equals exactly the mean of the coupled spectra of the field with templates minus the mean of the coupled spectra of the same field without templates, for every pair of components and multipole.", "quantifier": "for every isotropic mask, set of templates, spin, purification setting, variance map and noise with that variance", "why_tests_cant": "A statement about an expectation over noise realisations; the test compares the sum of a few spectra with stored numbers, in which exchanged components cannot be seen.", "anchors": ["pymaster/workspaces.py:uncorr_noise_deprojection_bias", "pymaster/field.py:NmtField"]}
{"id": "C61", "title": "Simulated flat maps have the requested spectra", "statement": "If the random numbers of the generator are uncorrelated with unit variance, the maps returned by synfast_flat have Fourier modes (E and B modes for nonzero spin) that are uncorrelated between different wave vectors, and whose covariance at a wave vector is the requested cross-spectrum at its modulus, interpolated linearly between the tabulated multipoles, times the beams of both fields, divided by the area of the map.", "quantifier": "for every map size, set of spins, spectra that are positive semidefinite at every multipole, beams, number of threads and schedule", "why_tests_cant": "A statement about expectations over realisations for every mode; tests compare a few binned spectra of one realisation within a wide tolerance, and modes at the edge of the grid carry little weight in them.", "anchors": ["pymaster/utils.py:synfast_flat", "src/nmt_field_flat.c:nmt_synfast_flat", "src/flatsky_utils.c:fs_synalm", "src/flatsky_utils.c:fs_alm2map"]}
{"id": "C62", "title": "Different seeds give unrelated simulations", "statement": "Maps simulated by synfast_flat with different non-negative seeds do not share random numbers.", "quantifier": "for every pair of different seeds, map size, number of threads and schedule", "why_tests_cant": "Depends on the order in which threads start, and on comparing realisations with neighbouring seeds mode by mode.", "anchors": ["pymaster/utils.py:synfast_flat", "src/flatsky_utils.c:fs_synalm"]}
{"id": "C63", "title": "Purified components of a flat-sky field contain nothing of the other component", "statement": "For a flat-sky field of spin 2 made with purify_e or purify_b, a mask whose derivatives are resolved by the pixels, and exact Fourier transforms, the Fourier coefficients of a purified component at every nonzero wave vector are a linear combination of the modes of that component of the sky alone, with weights that are the coefficients of the mask times the squared ratio of the wave numbers. A sky of E modes only therefore gives no B coefficients if B is purified, whatever the mask. A component that is not purified has the same coefficients as without purification. This should not depend on the shape of the pixels.", "quantifier": "all map sizes, all masks and skies with bandwidths whose sum is below the highest wave number of the map, all wave vectors, both components, all combinations of the two flags", "why_tests_cant": "Tests compare the spectra of purified fields for a few masks with stored results, all with square pixels; whether each coefficient is free of the other component, and whether that depends on the shape of the pixels, is a statement about all maps.", "anchors": ["src/nmt_field_flat.c:walm_x_lpower", "src/nmt_field_flat.c:nmt_purify_flat", "src/nmt_field_flat.c:nmt_field_flat_alloc", "src/flatsky_utils.c:fs_map2alm", "pymaster/field.py:NmtFieldFlat.__init__"]}
{"id": "C64", "title": "Templates are removed from flat-sky fields", "statement": "The maps of a flat-sky field made with contaminant templates are orthogonal to every template multiplied by the mask, and adding any linear combination of the templates to the input maps changes neither the maps nor the Fourier coefficients of the field. With purification the maps and coefficients are also unchanged if the masked templates are linearly independent.", "quantifier": "all maps, masks, numbers of templates, linear combinations of templates (also linearly dependent ones without purification), tolerances, with maps masked on input or not", "why_tests_cant": "Tests remove one or two fixed templates from one map; invariance under every combination of templates, also nearly or exactly degenerate ones, is a statement about all inputs and needs the properties of the pseudo-inverse.", "anchors": ["src/nmt_field_flat.c:nmt_field_flat_alloc", "src/utils.c:moore_penrose_pinv", "pymaster/field.py:NmtFieldFlat.__init__"]}
{"id": "C65", "title": "Only maps multiplied by the mask matter", "statement": "A field made from maps and templates that were multiplied by the mask beforehand, with masked_on_input=True, is the same as the field made from the maps and templates themselves. Maps that agree after multiplication with the mask give the same field: what is in pixels where the mask vanishes has no influence. This holds for curved-sky fields (also with anisotropic masks), flat-sky fields, with and without templates and purification.", "quantifier": "all maps, masks, templates, spins, transforms", "why_tests_cant": "Tests compare the two ways of passing maps for one smooth map; the values in masked pixels are arbitrary in practice (bad values, zeros, other sources), and their influence is a statement about all maps.", "anchors": ["pymaster/field.py:NmtField.__init__", "pymaster/field.py:NmtField._purify", "pymaster/field.py:NmtFieldFlat.__init__", "src/nmt_field_flat.c:nmt_field_flat_alloc", "src/nmt_field_flat.c:nmt_purify_flat"]}
{"id": "C66", "title": "Flat-sky covariances are exact for white noise", "statement": "For maps of white Gaussian noise, gaussian_covariance_flat, given the flat spectra of the noise, returns exactly the covariance of the bandpowers that compute_coupled_cell_flat and decouple_cell compute from such maps, for all masks and for all multipole cuts and binnings for which these bandpowers can be computed.", "quantifier": "all masks, pixel grids, pixel covariances between the four maps, bands, multipole cuts, invertible workspaces", "why_tests_cant": "Tests compare with stored matrices or with the scatter of a few hundred simulations for one mask; an exact equality for all masks and binnings is a statement about fourth moments of random maps.", "anchors": ["src/nmt_covar_flat.c:nmt_covar_workspace_flat_init", "src/nmt_covar_flat.c:nmt_compute_gaussian_covariance_flat", "pymaster/covariance.py:gaussian_covariance_flat", "pymaster/covariance.py:NmtCovarianceWorkspaceFlat.compute_coupling_coefficients"]}
{"id": "C67", "title": "Exchanging the two spectra transposes a flat-sky covariance", "statement": "Exchanging the two power spectra of gaussian_covariance_flat (the pairs of fields of the coefficients, the spins, the workspaces and the four input spectra, transposed accordingly) gives the same coefficients and the transposed matrix; the covariance of a power spectrum with itself is a symmetric matrix.", "quantifier": "all masks, pixel grids, spins, bands, input spectra, workspaces, contents of uninitialised memory", "why_tests_cant": "Tests compare one covariance with stored numbers; they never call the function with the arguments exchanged, and the coefficients are sums over pairs of modes whose symmetry depends on the grid.", "anchors": ["src/nmt_covar_flat.c:nmt_covar_workspace_flat_init", "src/nmt_covar_flat.c:nmt_compute_gaussian_covariance_flat", "pymaster/covariance.py:gaussian_covariance_flat"]}
{"id": "C68", "title": "Coefficients of curved-sky covariances are the textbook sums and do not depend on the order of the pairs", "statement": "NmtCovarianceWorkspace.from_fields accepts exactly fields with isotropic masks on the same pixels and band limits with sensible Toeplitz parameters; the coefficients are then the textbook sums of Wigner symbols over the cross-spectra of the products of masks (a1 b1, a2 b2) and (a1 b2, a2 b1); exchanging the two pairs of fields gives the same coefficients, so covariances of exchanged pairs are transposed; for one field the coefficients for autospectra are not negative; a failing call leaves coefficients computed before in place.", "quantifier": "all masks, pixelisations, band limits, Toeplitz parameters, spherical-harmonic transforms, symbols with the symmetries of Wigner 3j symbols", "why_tests_cant": "Tests compare coefficients of one mask with stored numbers; nothing compares them with the sums in the documentation for all masks, and the exchange property fails only for fields with different settings.", "anchors": ["pymaster/covariance.py:NmtCovarianceWorkspace.compute_coupling_coefficients", "src/nmt_covar.c:nmt_covar_workspace_init", "pymaster/field.py:NmtField.is_compatible"]}
{"id": "C69", "title": "Covariances between automatic spectra of one field are not negative", "statement": "For a Gaussian field the automatic pseudo-spectra (EE and BB at any multipoles) have a covariance that is not negative; gaussian_covariance(coupled=True) gives values that are not negative for them as well.", "quantifier": "all masks, spectra without EB correlation, bandpowers, multipoles, Gaussian fields", "why_tests_cant": "Covariances between EE and BB are small and are compared with stored output of the same code; the sign error of the coupling between E and B is invisible to them.", "anchors": ["src/utils.c:covar_indices", "src/utils.c:cov_get_coupling_pair_index", "src/nmt_covar.c:nmt_compute_gaussian_covariance_coupled", "pymaster/covariance.py:gaussian_covariance"]}
{"id": "C70", "title": "Coupled covariances do not depend on bandpowers", "statement": "gaussian_covariance(coupled=True) is the covariance of the pseudo-spectra of compute_coupled_cell, which know nothing of bandpowers: two workspaces that differ in the bandpowers only give the same values at all multipoles in bands of both.", "quantifier": "all coefficients, spins, input spectra, workspaces, bandpower schemes", "why_tests_cant": "Tests use one scheme, with f_ell = 1; the dependence shows only when schemes are compared.", "anchors": ["src/nmt_covar.c:nmt_compute_gaussian_covariance_coupled", "pymaster/covariance.py:gaussian_covariance", "pymaster/bins.py:NmtBin"]}
{"id": "C71", "title": "The flat-sky deprojection bias is the mean effect of template removal", "statement": "If the best guess passed to deprojection_bias_flat is the spectrum of the random maps at every Fourier mode (linear between the given multipoles, the first value below the first, zero from the last), the result is exactly the mean of compute_coupled_cell_flat for the fields with templates minus the mean for the same fields without templates, in every band.", "quantifier": "all map shapes and sizes, masks, spins, purification flags, templates, thresholds, bandpowers, mode cuts, best guesses; all statistically homogeneous random maps with these spectra; fields with maps that are kept and not masked on input", "why_tests_cant": "The statement is about an average over random skies; the tests compare the output for one map with stored output of the same code.", "anchors": ["pymaster/workspaces.py:deprojection_bias_flat", "src/nmt_master_flat.c:nmt_compute_deprojection_bias_flat", "src/nmt_field_flat.c:nmt_field_flat_alloc", "src/flatsky_utils.c:fs_alm2cl"]}
{"id": "C72", "title": "couple_cell of flat workspaces predicts the mean pseudo-spectrum", "statement": "NmtWorkspaceFlat.couple_cell, given spectra at a list of multipoles, returns in each band the mean of the pseudo-spectrum (compute_coupled_cell_flat) over skies with these spectra, for the masks and beams of the fields with which the workspace was computed. Applied to spectra that are constant in the bands, it is undone by decouple_cell. Spectra of the wrong shape are rejected.", "quantifier": "for all maps, masks, beams, spins, bands, cuts, lists of multipoles, spectra and random skies having them", "why_tests_cant": "The method averages the spectra in rings of multipoles that are unrelated to the bands and leaves out the outermost ring. The error is small for smooth spectra on large maps, and a test comparing with simulations has noise larger than it. The statement is about expectation values over all skies.", "anchors": ["pymaster/workspaces.py:NmtWorkspaceFlat.couple_cell", "pymaster/namaster.i:couple_cell_py_flat", "src/nmt_master_flat.c:nmt_couple_cl_l_flat_fast", "src/nmt_master_flat.c:nmt_compute_coupling_matrix_flat", "src/nmt_field_flat.c:nmt_flatsky_info_alloc"]}
{"id": "C73", "title": "Flat workspaces survive writing and reading", "statement": "A NmtWorkspaceFlat that was computed, written with write_to and read with read_from behaves as before in decouple_cell, couple_cell, gaussian_covariance_flat and compute_full_master_flat, and writing it again gives the same file. If writing was interrupted, what is left is not read as a workspace. A failed read leaves the object without a workspace.", "quantifier": "for all flat fields, bands, cuts, previous contents of the object and of memory, and all points at which writing can be interrupted; for every correct rounding of numbers to the 15 digits that FITS keywords hold", "why_tests_cant": "The sides of the map and the inverse width of the rings go through header keywords that hold 15 digits. Whether the loss matters depends on the numbers; a test with a few maps meets none or only the harmless ones.", "anchors": ["pymaster/workspaces.py:NmtWorkspaceFlat.read_from", "pymaster/workspaces.py:NmtWorkspaceFlat.write_to", "src/nmt_io.c:nmt_workspace_flat_write_fits", "src/nmt_io.c:nmt_workspace_flat_read_fits", "src/nmt_io.c:nmt_flatsky_info_tohdus"]}
{"id": "C74", "title": "Flat covariance workspaces survive writing and reading, and files of another kind are refused", "statement": "A NmtCovarianceWorkspaceFlat that was computed, written with write_to and read with read_from gives the same covariances, and writing it again gives the same file. If writing was interrupted, what is left is not read as one. Each of the four kinds of files (workspace or covariance workspace, curved or flat sky) is refused with a RuntimeError by the read_from of the other three kinds.", "quantifier": "for all fields, bands, workspaces of the four kinds, contents of memory, and all points at which writing can be interrupted", "why_tests_cant": "The readers do not check the kind of a file; whether one is refused depends on which keywords and units happen to be missing. Tests read files of the right kind.", "anchors": ["pymaster/covariance.py:NmtCovarianceWorkspaceFlat.read_from", "pymaster/covariance.py:NmtCovarianceWorkspaceFlat.write_to", "src/nmt_io.c:nmt_covar_workspace_flat_write_fits", "src/nmt_io.c:nmt_covar_workspace_flat_read_fits", "src/nmt_io.c:nmt_workspace_read_fits"]}
{"id": "C75", "title": "The recursion for coupling coefficients computes the Wigner 3j symbols", "statement": "The routine that fills a buffer with Wigner 3j symbols for given l2, l3, m2, m3 leaves in it the symbols given by Racah's formula, from the lowest l1 on, zeros for a lower row that is not allowed, and changes nothing else; a buffer that is too small is an error. The tests of the recursion that rescale large numbers and drop small ones do not spoil the result.", "quantifier": "for all l2, l3, m2, m3, buffer sizes and contents; exactly while (2(l2+l3)+1)^(2(|m2|+|m3|)+3) is at most 10^153, which includes all 31-bit multipoles with |m2|+|m3| up to 6; up to symbols below 10^-153 while that number is in the range of doubles; with rescaling, whenever neighbouring symbols do not differ by a factor 10^153", "why_tests_cant": "Tests compare a few symbols with tables. That two recursions started with arbitrary numbers, matched at a point that depends on the input and normalised by a sum, give the symbols with the right sign for all inputs is a theorem on the three-term recurrence and the orthogonality of the symbols.", "anchors": ["src/utils.c:drc3jj", "src/nmt_master.c:nmt_compute_master_coefficients", "src/nmt_master.c:nmt_compute_coupling_matrix_anisotropic"]}
{"id": "C76", "title": "The Wigner symbols in the code have the symmetries that coupling matrices rely on", "statement": "The numbers that the loops over multipoles take from the buffers are the Wigner 3j symbols; the routine for zero lower rows and the general one agree; exchanging columns or reversing the lower row multiplies them by (-1)^(l1+l2+l3). Hence coupling matrices of unpurified fields are the textbook sums, the one of the full sky is the identity, and the failures found for joint, anisotropic, Toeplitz and purified matrices occur with the true symbols.", "quantifier": "for all multipoles of 31 bits up to the band limit of the mask, spins up to 3, mask spectra, bands, beams and contents of the buffers", "why_tests_cant": "Tests compare matrices for one mask with those of another code to a tolerance.", "anchors": ["src/utils.c:drc3jj", "src/utils.c:drc3jj_000", "src/nmt_master.c:nmt_compute_master_coefficients", "pymaster/workspaces.py:NmtWorkspace.compute_coupling_matrix"]}
{"id": "C77", "title": "Rows of the coupling matrix sum to the mean of the product of the masks", "statement": "For fields of equal spin that are not purified, the coupling of constant spectra (for polarisation equal in E and B and without EB) is the constant multiplied by the mean over the sky of the product of the masks, so that the noise bias of homogeneous white noise is flat; no row of the matrix of an auto-spectrum sums to more; and a constant mask spectrum (points at random positions) couples all multipoles alike, mixes E and B fully, and does not couple fields of different spins.", "quantifier": "for all spins, mask spectra, bands and multipoles whose coupled multipoles are all in the matrix", "why_tests_cant": "Tests can compare one mask at a tolerance; the identity holds because of the orthogonality of the Wigner symbols for all multipoles.", "anchors": ["src/nmt_master.c:nmt_compute_master_coefficients", "src/nmt_master.c:nmt_compute_coupling_matrix", "pymaster/workspaces.py:NmtWorkspace.compute_coupling_matrix", "pymaster/workspaces.py:NmtWorkspace.couple_cell"]}
{"id": "C78", "title": "No order of calls makes the library use memory that is not there", "statement": "Whatever binning schemes, workspaces and covariance workspaces a user creates, computes, reads, updates, uses, writes and deletes, in whatever order and with whatever calls failing in between, the library never follows or releases a pointer that was not set, or whose memory was already released. In particular deleting a binning scheme does not harm workspaces computed with it.", "quantifier": "for all finite sequences of calls on any number of objects, all numbers of bands, multipoles, spins, purification flags, threads and distributions of work, and all points at which a call can fail", "why_tests_cant": "Use after release is undefined: a test may pass although it happens. The number of orders of calls and of points of failure is unbounded.", "anchors": ["src/nmt_bins.c:nmt_bins_create", "src/nmt_bins.c:nmt_bins_free", "src/nmt_master.c:nmt_workspace_free", "src/nmt_master.c:nmt_compute_coupling_matrix", "src/nmt_master.c:nmt_workspace_update_binning", "src/nmt_covar.c:nmt_covar_workspace_init", "src/nmt_covar.c:nmt_covar_workspace_free", "src/nmt_io.c:nmt_workspace_read_fits", "pymaster/workspaces.py:NmtWorkspace", "pymaster/covariance.py:NmtCovarianceWorkspace", "pymaster/bins.py:NmtBin"]}
{"id": "C79", "title": "Deleted objects give back their memory", "statement": "When all binning schemes, workspaces and covariance workspaces of a session have been deleted, everything that the library allocated for them has been released, also after calls that failed.", "quantifier": "for all finite sequences of calls as in C78", "why_tests_cant": "Tests do not observe the heap, and leaks depend on the history, including failed calls.", "anchors": ["src/nmt_bins.c:nmt_bins_free", "src/nmt_master.c:nmt_workspace_free", "src/nmt_master.c:nmt_master_calculator_free", "src/nmt_covar.c:nmt_covar_workspace_init", "src/nmt_covar.c:nmt_covar_workspace_free", "pymaster/namaster.i:comp_gaussian_covariance"]}
{"id": "C80", "title": "Purified flat-sky spectra are unbiased", "statement": "For flat-sky fields of any spins, with or without purified E or B modes, beams, and templates, with non-uniform masks, the mean of the pseudo-spectra over skies with given bandpowers is the coupling matrix of the library times the bandpowers, and the whole pipeline (field, deprojection bias, coupling matrix, decoupling) returns the bandpowers of the sky on average. If a component is purified and the sky has none of it, its spectra are zero for every sky.", "quantifier": "for all statistically homogeneous random skies, masks, beams, templates, spins, purification flags, bands and excluded ranges", "why_tests_cant": "Tests compare means of finitely many simulations for one mask with a tolerance, and use bands for which errors at multipole 0 do not show.", "anchors": ["pymaster/field.py:NmtFieldFlat", "src/nmt_field_flat.c:nmt_purify_flat", "src/nmt_master_flat.c:nmt_compute_coupling_matrix_flat", "pymaster/workspaces.py:compute_coupled_cell_flat", "pymaster/workspaces.py:compute_full_master_flat", "pymaster/workspaces.py:deprojection_bias_flat", "pymaster/workspaces.py:NmtWorkspaceFlat.decouple_cell"]}
{"id": "C81", "title": "The coupling matrix of the curved sky is the one of the observed sky, and the pipeline is unbiased", "statement": "For two fields on the sphere with given masks, beams, spins, and purified or ordinary E and B modes, observing random skies whose statistics are isotropic, the mean of the pseudo-spectra of the masked maps is the true spectra multiplied by the beams and passed through the coupling matrix of the workspace made from the same two fields. The decoupled bandpowers of compute_full_master have as mean the bandpower windows of the workspace applied to the true spectra, and equal the true bandpowers on average if the spectra are constant within bands.", "quantifier": "for all isotropic random skies band-limited to lmax, all masks, beams, spins, purification flags, binnings and both normalisations, if the harmonic transforms are exact for the products of maps and masks involved", "why_tests_cant": "Tests compare averages of some hundred simulations with a tolerance for a few masks; the signs and factors of the purified and mixed-spin elements are visible there only if they are large, and nothing is said about other masks.", "anchors": ["pymaster/field.py:NmtField", "pymaster/field.py:NmtField._purify", "pymaster/workspaces.py:compute_coupled_cell", "pymaster/workspaces.py:NmtWorkspace.compute_coupling_matrix", "pymaster/workspaces.py:compute_full_master", "src/nmt_master.c:nmt_compute_coupling_matrix", "src/nmt_master.c:nmt_couple_cl_l", "src/nmt_master.c:nmt_decouple_cl_l"]}
{"id": "C82", "title": "Spectra of catalogs are unbiased", "statement": "For a field sampled at the positions of sources with weights and noise, the mean over skies and noise of the pseudo-spectrum of the catalog is the true spectrum passed through the coupling matrix of the workspace made from the catalog, without any contribution of the noise of the sources, and the decoupled bandpowers have the true bandpowers as mean. The same holds for the cross-spectrum of two catalogs.", "quantifier": "for all numbers, positions and weights of sources, isotropic random skies band-limited to lmax, noise distributions that are not correlated between different sources, spins, beams and binnings", "why_tests_cant": "Tests compare averages of simulations for a few catalogs with a tolerance of several sigma and choose lmax_mask large; the bias from the default lmax_mask or from subtracting a wrong shot noise shows for other catalogs.", "anchors": ["pymaster/field.py:NmtFieldCatalog", "pymaster/utils.py:_catalog2alm_ducc0", "pymaster/workspaces.py:compute_coupled_cell", "pymaster/workspaces.py:NmtWorkspace.compute_coupling_matrix", "pymaster/workspaces.py:NmtWorkspace.decouple_cell"]}
{"id": "C83", "title": "Spectra of fields with anisotropic weights are unbiased", "statement": "If the maps of a field with spin are weighted at each pixel with a symmetric matrix instead of a number, the mean of the pseudo-spectra of two such fields (or of one of them and a field with an ordinary mask) is the true spectrum passed through the coupling matrix of the workspace made from the fields, and the decoupled bandpowers of compute_full_master have the true bandpowers as mean.", "quantifier": "for all matrices of weights, ordinary masks, statistically isotropic random skies band-limited to lmax, spins, beams and binnings", "why_tests_cant": "The test suite compares the matrix for one anisotropic mask with a stored or simulated answer at a tolerance; exchanging two of the nine mask spectra or dropping the purification of the other field changes the answer only for masks for which these spectra differ.", "anchors": ["pymaster/field.py:NmtField", "pymaster/workspaces.py:NmtWorkspace.compute_coupling_matrix", "pymaster/workspaces.py:compute_full_master", "pymaster/namaster.i:comp_coupling_matrix_anisotropic", "src/nmt_master.c:nmt_compute_coupling_matrix_anisotropic"]}
{"id": "C84", "title": "Covariances are exact with a full-sky mask", "statement": "If the mask of the four fields is 1 everywhere and their skies are Gaussian and statistically isotropic, the covariance of two pseudo-spectra is the textbook formula (zero between different multipoles, otherwise the sum of two products of true spectra divided by 2l+1), gaussian_covariance given the true spectra returns this covariance for coupled=True, and the exact covariance of the decoupled bandpowers for coupled=False.", "quantifier": "for all spins, spectra, random skies with Gaussian moments, binnings, regular workspaces, components and multipoles", "why_tests_cant": "The test suite compares covariances with simulations at a tolerance, for spin-0 and spin-2 fields and bands away from the lowest multipoles; an error that affects only the first multipoles or one pair of components is below the scatter, and no test uses fields with another spin.", "anchors": ["pymaster/covariance.py:NmtCovarianceWorkspace.compute_coupling_coefficients", "pymaster/covariance.py:gaussian_covariance", "src/nmt_covar.c:nmt_compute_gaussian_covariance", "src/nmt_covar.c:nmt_compute_gaussian_covariance_coupled", "src/nmt_covar.c:nmt_covar_workspace_init"]}
{"id": "C85", "title": "Covariances are exact for white noise and any masks", "statement": "If the four fields are Gaussian white noise in the pixels, multiplied by any four masks, gaussian_covariance given their true (flat) spectra returns the exact covariance of the pseudo-spectra for coupled=True, and of the decoupled bandpowers for coupled=False, as long as the masks have been given a band limit of at least the sum of the two multipoles. With the default band limit of the masks, or for two different polarisation auto-spectra, this does not hold.", "quantifier": "for all masks, noise levels and correlations between the four maps, spins 0 and 2, pixelisations for which the transform without iterations is a sum over pixels, binnings, regular workspaces, components and multipoles", "why_tests_cant": "Covariances of noise are tested against simulations with a tolerance of the order of the Monte-Carlo scatter and for one mask; EE with BB is small for large masks, so a wrong sign or a factor four there, or power missing in the spectra of the products of masks, is below that scatter.", "anchors": ["pymaster/covariance.py:NmtCovarianceWorkspace.compute_coupling_coefficients", "pymaster/covariance.py:gaussian_covariance", "src/nmt_covar.c:nmt_compute_gaussian_covariance", "src/nmt_covar.c:nmt_compute_gaussian_covariance_coupled", "src/nmt_covar.c:nmt_covar_workspace_init", "pymaster/field.py:NmtField"]}
{"id": "C86", "title": "compute_full_master with contaminant templates on the sphere is unbiased", "statement": "If the maps contain any amounts of the contaminants whose templates are given to the fields, the mean over skies of the pseudo-spectra minus deprojection_bias is the coupling matrix of the workspace applied to the true spectra, and compute_full_master(f1, f2, b, cl_guess=true spectra) returns bandpowers whose mean is the true spectra convolved with the bandpower windows (exactly the true bandpowers if the spectrum is constant in each band).", "quantifier": "for all statistically isotropic ensembles of skies, amounts of the contaminants (also depending on the sky), templates that are linearly independent inside the mask, masks, beams, spins, purification, multipole ranges, binnings and regular workspaces", "why_tests_cant": "Deprojection is tested with one template and a tolerance of several sigma of a few simulations without beams; the bias term is small for large masks, so a guess spectrum that should have been smoothed with the beams goes unnoticed.", "anchors": ["pymaster/workspaces.py:compute_full_master", "pymaster/workspaces.py:deprojection_bias", "pymaster/field.py:NmtField", "pymaster/workspaces.py:NmtWorkspace.decouple_cell"]}
{"id": "C87", "title": "Spectra of clustering catalogs measure the density contrast, on average over the positions", "statement": "If sources and randoms of NmtFieldCatalogClustering are drawn independently from two densities, the mean of compute_coupled_cell is the product of the total weights times the spectrum of the difference between the densities, for one catalog with itself (where shot noise is subtracted) and for two catalogs; sources with the density of their randoms have zero power on average.", "quantifier": "all densities on the sphere, numbers of sources and randoms, weights, band limits and multipoles", "why_tests_cant": "It is a statement about means over random catalogs; tests compare one realisation with a tolerance, and the missing terms are of the order of the shot noise times the spectrum of the mask, small for the numbers of sources of the tests. No test uses the same randoms for two catalogs.", "anchors": ["pymaster/field.py:NmtFieldCatalogClustering", "pymaster/workspaces.py:compute_coupled_cell", "pymaster/workspaces.py:NmtWorkspace.compute_coupling_matrix", "pymaster/utils.py:_catalog2alm_ducc0"]}
{"id": "C88", "title": "Flat-sky sessions have no undefined behaviour", "statement": "Whatever NmtBinFlat, NmtFieldFlat, NmtWorkspaceFlat and NmtCovarianceWorkspaceFlat objects a user creates, computes, reads, correlates, writes and deletes, in whatever order, the library never reads, writes or releases memory through a pointer that is not set, points behind the end of an array of pointers or belongs to memory already released; calls that fail raise a python exception and leave the session usable.", "quantifier": "for all sessions, i.e. finite sequences of operations on any number of objects, with any fields (spins, templates, beams, purification, lite, mask only), bands, pixels, files and places where reading or writing fails", "why_tests_cant": "Tests run one sequence of calls per process, with consistent objects, and undefined behaviour does not have to show; deleting objects in another order, reading damaged files, or mixing objects made for other fields is not tried.", "anchors": ["pymaster/workspaces.py:NmtWorkspaceFlat", "pymaster/workspaces.py:compute_full_master_flat", "pymaster/workspaces.py:deprojection_bias_flat", "pymaster/field.py:NmtFieldFlat", "pymaster/bins.py:NmtBinFlat", "pymaster/covariance.py:NmtCovarianceWorkspaceFlat", "pymaster/covariance.py:gaussian_covariance_flat", "src/nmt_field_flat.c:field_flat_alloc_common", "src/nmt_master_flat.c:nmt_compute_power_spectra_flat", "src/nmt_io.c:nmt_workspace_flat_read_fits"]}
{"id": "C89", "title": "Flat-sky objects give back their memory", "statement": "When all flat-sky objects of a session have been deleted, no memory allocated by the library remains allocated, whether calls succeeded or failed.", "quantifier": "for all sessions as in C88", "why_tests_cant": "Tests do not measure memory, and a leak shows only in processes that run many computations; failing calls are tested only for the exception they raise.", "anchors": ["src/nmt_master_flat.c:nmt_workspace_flat_free", "src/nmt_master_flat.c:nmt_compute_power_spectra_flat", "src/nmt_master_flat.c:nmt_compute_deprojection_bias_flat", "src/nmt_field_flat.c:nmt_field_flat_free", "src/nmt_covar_flat.c:nmt_covar_workspace_flat_free", "src/nmt_io.c:nmt_workspace_flat_read_fits", "pymaster/namaster.i:comp_pspec_flat", "pymaster/namaster.i:comp_pspec_coupled_flat"]}
{"id": "C90", "title": "FKP normalisation divides by the mean product of the masks and responds to white spectra with unit gain", "statement": "With normalization='FKP', NmtWorkspace.decouple_cell bins the pseudo-spectrum and divides it by the mean over the sky of the product of the two masks, whatever the spins, beams, purification and anisotropic weights; the coupling matrix is the same as with 'MASTER', and any other name raises ValueError. For catalogs only the spectrum of a catalog with itself is accepted and the divisor is the sum of the squared weights over 4 pi. The response to a white input spectrum, i.e. couple_cell followed by decouple_cell, is one in every bandpower.", "quantifier": "for all masks, fields, bands, spectra and normalisation names", "why_tests_cant": "Tests compare FKP bandpowers with a ratio computed for one mask. That the response to white spectra is one in all bands depends on sum rules of the coupling coefficients and on the multipoles beyond the last one, for all masks.", "anchors": ["pymaster/workspaces.py:NmtWorkspace.compute_coupling_matrix", "src/nmt_master.c:bin_coupling_matrix", "src/nmt_master.c:nmt_decouple_cl_l"]}
{"id": "C91", "title": "Bandpowers and covariances do not depend on the units of the masks", "statement": "Multiplying the isotropic masks of the fields by positive numbers (maps and templates are passed without mask) multiplies maps, coefficients and templates of the fields by the number, and pseudo-spectra and deprojection bias by both numbers. Bandpowers of compute_full_master, bandpower windows and decoupled Gaussian covariances do not change, if noise pseudo-spectra are multiplied by both numbers. Calls that raise an exception still raise the same exception.", "quantifier": "for all masks, positive numbers, maps, templates, purification settings, beams, numbers of iterations, bands, Toeplitz settings and normalisations for which the binned coupling matrix can be inverted", "why_tests_cant": "A test compares two runs for a few masks and one factor. The claim needs the homogeneity of every step: pseudo-inverse with its threshold, purification, three terms of the deprojection bias, branches of the Toeplitz approximation that compare coefficients, both normalisations.", "anchors": ["pymaster/field.py:NmtField.__init__", "pymaster/workspaces.py:NmtWorkspace.compute_coupling_matrix", "pymaster/workspaces.py:compute_full_master", "pymaster/workspaces.py:deprojection_bias", "pymaster/covariance.py:gaussian_covariance", "src/nmt_master.c:nmt_compute_coupling_coefficients"]}
{"id": "C92", "title": "Turning the polarisation angle of the maps turns the bandpowers", "statement": "If the two components of the maps (and of the templates) of a field with spin are rotated into each other by an angle, as a wrong polarisation angle of an instrument does, the maps, coefficients and templates of the NmtField are rotated by the same angle and nothing else changes. The rows of pseudo-spectra, deprojection bias and bandpowers of compute_full_master are rotated accordingly: each index by the angle of its field (EE' = cos^2 EE - sin cos (EB+BE) + sin^2 BB and so on; TE' = cos TE - sin TB). The workspace does not change. For an angle common to both fields, EE+BB and EB-BE do not change. Calls that raise an exception still raise the same one. The fields have isotropic masks, and either both or none of their E and B modes are purified; for a field with purified B modes and unpurified E modes the claim is false.", "quantifier": "for all maps, masks, templates, spins (including a spin-0 field with a field with spin), angles (two different ones for the two fields), beams, iterations, bands, Toeplitz options, normalisations, noise and guessed spectra (rotated too), and all spherical harmonic transforms that are linear and commute with rotations of the two components", "why_tests_cant": "Tests compare with stored numbers for one sky, in which a wrong sign of one of the 16 blocks of the coupling matrix, a transposed EB and BE in the bias, or a coefficient of the templates computed from one component only would look like any other change; the identity has to hold for every map, mask and angle.", "anchors": ["pymaster/field.py:NmtField", "pymaster/workspaces.py:compute_coupled_cell", "pymaster/workspaces.py:deprojection_bias", "pymaster/workspaces.py:compute_full_master", "src/nmt_master.c:nmt_compute_coupling_matrix", "src/nmt_master.c:bin_coupling_matrix", "src/nmt_master.c:nmt_decouple_cl_l"]}
{"id": "C93", "title": "Cross-spectra of a catalog and a map are unbiased", "statement": "For an NmtFieldCatalog that samples a random sky (plus noise of the sources) and an NmtField with a masked map of a second, correlated sky, the mean of compute_coupled_cell is the true spectrum passed through the coupling matrix of the NmtWorkspace made from the two fields, the mean of decouple_cell is the true spectrum convolved with the bandpower windows, and with the MASTER normalisation the bandpowers are unbiased for spectra that are constant in each band. This holds in both orders of the two fields, with no condition on lmax_mask beyond that of the map, and no shot noise has to be subtracted. Such a workspace exists for any pixelisation of the map; the FKP normalisation raises ValueError for a catalog and a map.", "quantifier": "for all numbers, positions and weights of sources, spins of both fields, masks band-limited at lmax_mask, beams, purification settings of the map (if the map is the second field and purified: catalogs of spin 0 or 2), bands for which the binned matrix can be inverted, isotropic distributions of the skies with any cross-spectrum, and noise not correlated with the sky of the map", "why_tests_cant": "A mean over all skies cannot be tested, only averages over a few simulations with a tolerance; and mistakes in the order of fields, in the noise that must not be subtracted here, or in the beams are invisible for the symmetric cases tests use.", "anchors": ["pymaster/field.py:NmtFieldCatalog", "pymaster/field.py:NmtField", "pymaster/workspaces.py:NmtWorkspace.compute_coupling_matrix", "pymaster/workspaces.py:compute_coupled_cell", "pymaster/workspaces.py:NmtWorkspace.decouple_cell"]}
{"id": "C94", "title": "compute_full_master works for catalogs", "statement": "For two fields with the same multipoles, at least one of them an NmtFieldCatalog with values of a field, compute_full_master returns what compute_coupled_cell, NmtWorkspace.from_fields and decouple_cell return when called one after the other. FALSE of the code: compute_full_master asks deprojection_bias for the bias of templates in any case, which requires equal pixelisations and fields that are not lightweight, so the call never returns bandpowers if one of the fields is a catalog; it is ValueError for all compatible fields with values.", "quantifier": "for all catalogs, maps, bands, workspaces, noise spectra and guessed spectra", "why_tests_cant": "Tests call the function with maps; that no combination of arguments makes it work for catalogs is a statement about all of them.", "anchors": ["pymaster/workspaces.py:compute_full_master", "pymaster/workspaces.py:deprojection_bias", "pymaster/field.py:NmtFieldCatalog", "pymaster/field.py:NmtField.is_compatible"]}
{"id": "C95", "title": "Turning or reflecting the sky turns or reflects the maps, not the bandpowers", "statement": "If masks, maps and templates of both fields are moved by a symmetry of the pixelisation (a rotation or reflection of the sphere that takes pixels to pixels of the same area, such as the rotations by 90 degrees about the axis and the reflections of HEALPix maps), the constructor does exactly what it did before (same exceptions, same attributes moved), NmtWorkspace.from_fields returns the same workspace, and compute_coupled_cell, deprojection_bias and compute_full_master return the same arrays, except that after a reflection (under which the second component of polarised maps changes sign) the rows that have exactly one B mode, TB, EB and BE, change sign; given noise and guessed spectra have to change sign in the same rows. With purified E or B modes, templates, beams and masks of any shape. So TB, EB and BE bandpowers of masks, maps and templates that are their own mirror images are zero: purification, deprojection and decoupling create no parity violation.", "quantifier": "for all symmetries of all pixelisations, all maps, masks, templates, spins, beams, purification flags, bands and multipole cuts with isotropic masks", "why_tests_cant": "A test compares one map with one reflected map; a wrong sign in one of the terms of purification or in the TB and EB entries of the coupling matrices shows up only for particular masks and maps, and is not distinguishable from noise in simulations.", "anchors": ["pymaster/field.py:NmtField", "pymaster/field.py:NmtField._purify", "pymaster/workspaces.py:compute_coupled_cell", "pymaster/workspaces.py:deprojection_bias", "pymaster/workspaces.py:NmtWorkspace.compute_coupling_matrix", "pymaster/workspaces.py:compute_full_master", "src/master.c:comp_coupling_matrix"]}
{"id": "C96", "title": "Flat-sky beams and spectra given as samples take the given values at the given multipoles", "statement": "The beam of an NmtFieldFlat and the spectra given to NmtWorkspaceFlat.couple_cell and NmtBinFlat.bin_cell are functions of the multipole given by samples. They take the given values at the given multipoles, are linear between neighbouring ones, constant below the first and zero above the last (bin_cell: the last value above the last); samples that cannot be interpolated (a single one, or multipoles that do not increase) raise an exception and leave the process running. True for bin_cell with increasing multipoles and for beams away from their last multipole. False otherwise: at the last multipole itself beams are zero instead of the given value, so modes with exactly this wave number are lost from the field's response; spectra given to couple_cell at the wave numbers of the map do not contribute at the largest of them, whatever their value there; and samples at a single multipole or at multipoles out of order end the python process in the GSL error handler.", "quantifier": "for all maps, masks and parameters that the constructor accepts without a beam, all beams and spectra with any number of samples at any multipoles, all workspaces", "why_tests_cant": "Tests use beams and spectra tabulated well beyond the modes of the map, where the boundary is never met; a crash of the process cannot be caught by a test runner in the same process.", "anchors": ["src/nmt_field_flat.c:nmt_k_function_alloc", "src/nmt_field_flat.c:nmt_k_function_eval", "pymaster/field.py:NmtFieldFlat", "pymaster/bins.py:NmtBinFlat.bin_cell", "pymaster/workspaces.py:NmtWorkspaceFlat.couple_cell"]}
{"id": "C97", "title": "Moving or turning flat maps by 180 degrees on the periodic grid changes no flat-sky bandpower", "statement": "If mask, maps and templates of all fields are moved cyclically by any number of pixels along the two axes, or turned by 180 degrees (under which maps of odd spin change sign), NmtFieldFlat does exactly what it did before (same exceptions, same attributes moved), NmtWorkspaceFlat.compute_coupling_matrix gives the same workspace, compute_coupled_cell_flat, deprojection_bias_flat and compute_full_master_flat return the same arrays, and NmtCovarianceWorkspaceFlat holds the same coefficients. With purified E or B modes (whose first and second derivatives of the mask have spins 1 and 2), templates, masked input, beams, cuts in kx and ky, any numbers of pixels (even or odd, so with or without Nyquist modes) and rectangular pixels.", "quantifier": "for all movements, all map sizes, masks, maps, templates, spins, beams, purification flags, bands, cuts, noise and guessed spectra", "why_tests_cant": "A test moves one map by one offset; a wrong phase or a wrong sign for one parity of the number of pixels, one spin or one purification term is only seen with the right combination.", "anchors": ["pymaster/field.py:NmtFieldFlat", "src/nmt_field_flat.c:nmt_field_flat_alloc", "src/nmt_field_flat.c:nmt_purify_flat", "src/flatsky_utils.c:fs_map2alm", "src/flatsky_utils.c:fs_alm2map", "src/flatsky_utils.c:fs_alm2cl", "src/nmt_master_flat.c:nmt_compute_coupling_matrix_flat", "src/nmt_master_flat.c:nmt_compute_deprojection_bias_flat", "src/nmt_covar_flat.c:nmt_covar_workspace_flat_init", "pymaster/workspaces.py:compute_full_master_flat"]}
{"id": "C98", "title": "A joint workspace (is_teb) decouples the seven spectra like the three separate workspaces", "statement": "For a spin-0 field f1 and a field f2 with spin, NmtWorkspace.from_fields(f1, f2, b, is_teb=True) computes 'all mode-coupling matrices (0-0, 0-s, s-s) at the same time'; decouple_cell of the seven stacked spectra [TT, TE, TB, EE, EB, BE, BB] gives the bandpowers that the three workspaces (f1,f1), (f1,f2) and (f2,f2) give for the 1, 2 and 4 spectra. True if the fields have the same mask and beam, the spin is even and masks are isotropic, also with purification. False otherwise: the matrices of all blocks use the cross-spectrum of the two masks and the product of the two beams. If the mask (beam) of f1 is c (d) times that of f2, the TT bandpowers are multiplied by c d and EE, EB, BE, BB divided by it; for odd spins both change sign as well. No exception or warning is given. For anisotropic masks is_teb is silently ignored: the workspace is the one without it, and decouple_cell of seven spectra raises ValueError.", "quantifier": "for all pairs of fields with masks and beams proportional to each other, spins, purification options of the second field, bandpowers within the band limit, input spectra and linear solvers that are correct on invertible matrices; for all fields with anisotropic masks", "why_tests_cant": "the tests compare joint and separate workspaces for one mask used for both fields, one spin (2) and no beam; how the result depends on the ratios of masks and beams, the parity of the spin and the kind of mask needs all of them", "anchors": ["pymaster/workspaces.py:NmtWorkspace.compute_coupling_matrix", "pymaster/workspaces.py:NmtWorkspace.decouple_cell", "src/nmt_master.c:nmt_compute_coupling_matrix", "src/nmt_master.c:nmt_compute_master_coefficients", "src/nmt_master.c:nmt_decouple_cl_l"]}
{"id": "C99", "title": "Flat-sky bandpowers and covariances do not depend on the units of the masks", "statement": "Multiplying the masks of flat-sky fields by positive numbers multiplies maps, coefficients and templates of the fields by the number, and pseudo-spectra, deprojection bias and coupling matrices by both numbers; maps and templates passed with masked_on_input=True are multiplied as well. Bandpowers of compute_full_master_flat do not change if noise pseudo-spectra (and a workspace that is passed) are multiplied by both numbers. Gaussian covariances do not change when all four masks are multiplied by non-zero numbers. Calls that raise an exception still raise the same exception.", "quantifier": "for all flat-sky geometries, masks, factors, maps, templates, tolerances, purification settings, spins, beams, bands, cuts and guesses for which the binned coupling matrix can be inverted", "why_tests_cant": "A test compares two runs for a few masks and one factor. The claim needs the homogeneity of every step in C: pseudo-inverse with its relative threshold, purification, division of masked maps by the mask where it is positive, the terms of the deprojection bias, the products of masks in the covariance.", "anchors": ["pymaster/field.py:NmtFieldFlat.__init__", "src/nmt_field_flat.c:nmt_field_flat_alloc", "src/nmt_master_flat.c:nmt_compute_coupling_matrix_flat", "src/nmt_master_flat.c:nmt_compute_deprojection_bias_flat", "src/nmt_master_flat.c:nmt_compute_power_spectra_flat", "pymaster/workspaces.py:compute_full_master_flat", "pymaster/covariance.py:gaussian_covariance_flat"]}
{"id": "C100", "title": "Joint flat-sky workspaces give the same bandpowers as separate ones", "statement": "NmtWorkspaceFlat.compute_coupling_matrix with is_teb=True, for a scalar field and a field with spin, can be made whenever the separate workspaces can, and decoupling the seven stacked pseudo-spectra with it gives the bandpowers of the three separate workspaces (TT, the two spectra of T with the other field, the four of the other field with itself).", "quantifier": "for all flat maps, pairs of a scalar field and a field of any non-zero spin, masks, beams, purification settings, bands, cuts and pseudo-spectra for which the separate binned matrices can be inverted", "why_tests_cant": "The tests use the same mask for both fields. Whether the joint matrix is made of the right blocks depends on the masks, beams and purification flags of both fields and on all bands; for different masks it is silently wrong.", "anchors": ["pymaster/workspaces.py:NmtWorkspaceFlat.compute_coupling_matrix", "pymaster/workspaces.py:NmtWorkspaceFlat.decouple_cell", "src/nmt_master_flat.c:nmt_compute_coupling_matrix_flat"]}
{"id": "C101", "title": "Turning the polarisation angle of flat-sky maps turns the bandpowers", "statement": "If the two components of the maps (and of the templates) of an NmtFieldFlat with spin are rotated into each other by an angle, the maps, coefficients and templates of the field are rotated by the same angle and nothing else changes. The rows of pseudo-spectra (compute_coupled_cell_flat), deprojection bias (deprojection_bias_flat) and bandpowers (compute_full_master_flat) are rotated accordingly, each index by the angle of its field. The workspace does not change. For an angle common to both fields, EE+BB and EB-BE do not change. Calls that raise an exception still raise the same one. Either both or none of the E and B modes of a field are purified; for a field with purified B modes and unpurified E modes the claim is false.", "quantifier": "for all maps, masks, templates, spins (including a spin-0 field with a field with spin), angles (two different ones for the two fields), beams, bands, cuts of modes, noise and guessed spectra (rotated too), workspaces passed in or computed, and all inverse Fourier transforms that are linear", "why_tests_cant": "Tests compare with stored numbers for one sky. A wrong sign of one of the 16 blocks of the coupling matrix, a transposed EB and BE in the bias, or template coefficients computed from one component only would be one more set of numbers; the identity has to hold for every map, mask and angle.", "anchors": ["pymaster/field.py:NmtFieldFlat", "pymaster/workspaces.py:compute_coupled_cell_flat", "pymaster/workspaces.py:deprojection_bias_flat", "pymaster/workspaces.py:compute_full_master_flat", "src/nmt_field_flat.c:nmt_field_flat_alloc", "src/nmt_master_flat.c:nmt_compute_coupling_matrix_flat", "src/nmt_master_flat.c:nmt_compute_deprojection_bias_flat", "src/nmt_master_flat.c:nmt_decouple_cl_l_flat"]}
{"id": "C102", "title": "Flat-sky covariances follow rotations of the polarisation angles", "statement": "If the components of the four fields in the spectra passed to gaussian_covariance_flat are rotated by four angles, the covariance matrix is the one of the original spectra with its rows rotated by the angles of the first two fields and its columns by those of the last two. The number of rows and columns does not change, and both calls succeed. Either both or none of the E and B modes of each field are purified.", "quantifier": "for all spectra on consistent grids, spins of the four fields, angles (four different ones), masks, bands, cuts of modes, covariance workspaces, workspaces of the two pairs of fields with an invertible coupling matrix, and all contents of uninitialised memory", "why_tests_cant": "Tests compare diagonals with stored numbers. A swapped index of one of the four input spectra or one inverse coupling matrix applied transposed gives another symmetric matrix of about the right size. The identity links all blocks of the matrix for every set of spectra and angles.", "anchors": ["pymaster/covariance.py:gaussian_covariance_flat", "src/nmt_covar_flat.c:nmt_compute_gaussian_covariance_flat", "src/nmt_bins_flat.c:nmt_bin_cls_flat", "src/nmt_master_flat.c:nmt_compute_coupling_matrix_flat"]}
{"id": "C103", "title": "Covariances follow rotations of the polarisation angles, also after decoupling", "statement": "If the components of the four fields in the spectra passed to gaussian_covariance are rotated by four angles, the covariance matrix is the one of the original spectra with its rows rotated by the angles of the first two fields and its columns by those of the last two. This holds for coupled covariances at multipoles in bands, for any workspaces, and for covariances of decoupled bandpowers if the workspaces belong to fields with scalar masks and either both or none of the E and B modes of each field are purified. The call with rotated spectra succeeds if the call with the original ones does, and the matrix has the same shape.", "quantifier": "for all spectra, spins of the four fields, angles (four different ones), masks, beams, bands, normalisations and Toeplitz approximations of the workspaces, coupling coefficients of the covariance workspace, and all contents of uninitialised memory", "why_tests_cant": "Tests compare stored diagonals for one set of spectra. A wrong index of one of the blocks of the coupling matrix or of one of the input spectra gives another plausible covariance. The identity links all blocks of the matrix for every set of spectra and angles.", "anchors": ["pymaster/covariance.py:gaussian_covariance", "src/nmt_covar.c:nmt_compute_gaussian_covariance", "src/nmt_covar.c:nmt_compute_gaussian_covariance_coupled", "src/nmt_master.c:nmt_compute_coupling_matrix", "src/utils.c:cov_get_coupling_index"]}
{"id": "C104", "title": "Deprojection depends on the templates only through their span", "statement": "If the templates passed to NmtField are replaced by others that span the same maps inside the mask (other units, another order, sums and differences, more templates some of which are redundant), the harmonic coefficients of the field, the pseudo-spectra (compute_coupled_cell), the deprojection bias (deprojection_bias) and the bandpowers (compute_full_master) do not change. The same holds for fields with purified modes if the templates span the same maps over all pixels and one of the two sets is linearly independent inside the mask. The tolerance tol_pinv separates zero from non-zero eigenvalues for both sets.", "quantifier": "for all maps, masks, numbers of templates in both sets, templates, spins, purifications, band limits, beams, numbers of iterations, bins, noise and guessed spectra, workspaces passed in or computed, both fields changed independently, and all spherical harmonic transforms that are linear", "why_tests_cant": "Tests use one set of templates and compare with stored numbers or with a second implementation of the same sums. A template coefficient computed with a wrong normalisation or one index of the four-fold sum in the bias exchanged shows only when templates are not orthogonal or redundant. The claim covers every change of basis.", "anchors": ["pymaster/field.py:NmtField", "pymaster/utils.py:moore_penrose_pinvh", "pymaster/workspaces.py:compute_coupled_cell", "pymaster/workspaces.py:deprojection_bias", "pymaster/workspaces.py:compute_full_master"]}
{"id": "C105", "title": "Flat-sky deprojection depends on the templates only through their span", "statement": "If the templates passed to NmtFieldFlat are replaced by others that span the same maps inside the mask (other units, another order, sums and differences, more templates some of which are redundant), the Fourier coefficients of the field, the pseudo-spectra (compute_coupled_cell_flat), the deprojection bias (deprojection_bias_flat) and the bandpowers (compute_full_master_flat) do not change. The same holds for fields with purified modes if the templates span the same maps over all pixels and one of the two sets is linearly independent inside the mask. The tolerance tol_pinv is positive and separates zero from non-zero eigenvalues for both sets.", "quantifier": "for all maps, masks, patch sizes and pixel numbers, numbers of templates in both sets, templates, spins, purifications, beams, bins, cuts in the wave vectors, noise and guessed spectra, workspaces passed in or computed, both fields changed independently, and all inverse Fourier transforms that are linear", "why_tests_cant": "Tests use one set of templates and compare with stored numbers. A template coefficient computed with a wrong normalisation, one index of the four-fold sum in the bias exchanged, or the matrix of one field used for the other shows only when templates are not orthogonal or redundant. The claim covers every change of basis.", "anchors": ["pymaster/field.py:NmtFieldFlat", "src/nmt_field_flat.c:nmt_field_flat_alloc", "src/utils.c:moore_penrose_pinv", "src/nmt_master_flat.c:nmt_compute_deprojection_bias_flat", "src/nmt_master_flat.c:nmt_compute_power_spectra_flat", "pymaster/workspaces.py:compute_full_master_flat"]}
