# Formal model of NaMaster in Lean 4

The code in `/repo` (python package `pymaster`, C library in `src`, SWIG glue
`pymaster/namaster.i`) was only read, never run. This document says what is
modelled, how each property of `properties.jsonl` is proved, and what has to
be trusted.

## Layout

`lean/Verif/<Area>/Model.lean` model definitions, each citing the lines it models.
`lean/Verif/<Area>/Spec.lean` (where needed) small specification independent of the model.
`lean/Verif/<Area>/Lemmas.lean` helper lemmas.
`lean/Verif/<Area>/Props.lean` the property theorems, named `Cnn_...`, each followed by an
`example` meeting its hypotheses.
`lean/Verif/Mem/`: `Heap` (blocks, errors, triples), `Model` and `Use` (C functions), `Specs` (a triple for each),
`Session` (what a user can do), `Invariant`, `Props`, `Examples` (sessions that meet the hypotheses).

## General modelling decisions

* Floating point numbers are elements of a field `K` (ordered where the code
  compares them). Rounding, overflow to infinity and NaN are not modelled.
* C `int` is `Int`/`Nat` except in the property about 32-bit index overflow.
* Arrays are lists or functions from indices; a C array that has to be
  accessed in range has an explicit length.
* Results of calls are values of `Outcome` (`Verif/Common.lean`): `ok v`, `raises e` (python
  `raise`, C `report_error` turned into `RuntimeError` by SWIG) or `crash` (undefined
  behaviour, end of the process). A theorem that concludes `= .ok v` therefore also says
  that nothing is raised and no memory outside an array is accessed where the model tracks this.
* Loops with `+=` are sums over lists; loops with `=` are left folds of updates, so that
  the last write wins, as in C.
* External functions (Wigner 3j recursion, spherical harmonic and Fourier
  transforms, LU decomposition, eigenvalue decomposition, cfitsio, trigonometric functions, random number
  generators) are parameters; the assumptions used about them are explicit hypotheses of
  the theorems.

## Plan per property

| id | model | proof |
|----|-------|-------|
| C01 | `_get_bpw_arrays_linear`, `nmt_bins_create`, `nmt_bins_constant` over lists | computation of the filtered lists by arithmetic on `/` and induction |
| C02 | `nmt_bins_create` | counting / filter lemmas, sum of quotients |
| C03 | `from_edges` + `nmt_bins_create` | induction over the edge list |
| C04 | `nmt_bin_cls`, `nmt_ell_eff` | sums over lists, ordered field |
| C05 | `nmt_unbin_cls` as fold of writes | last-write lemma under disjointness; counterexample for overlap |
| C06 | `bin_coupling_matrix`, couple, decouple, windows as loops over flat indices | exchange of sums; solution of the linear system unique |
| C07 | same | same, plus C05 |
| C08 | same | linearity |
| C09 | state machine of the C workspace with failing updates | induction over the history, refinement to the record of the last inputs |
| C10 | SWIG `get_mcm`/`update_mcm` with flat index; 32-bit version | div/mod arithmetic; overflow witness |
| C11 | python workspace state machine with failure points | case analysis; negative witnesses |
| C12 | same | induction over the history; negative witness for two methods |
| C13 | status-passing model of cfitsio on an abstract list of HDUs | round trip + simulation; negative witness for FKP |
| C14 | `tohdus`/`fromhdus` for bandpowers | round trip for disjoint bands; negative witness |
| C15 | same | keyword default; old layout provably unreadable |
| C16 | prefix of the written HDU list | every strict prefix is rejected; atomic overwrite is false |
| C17 | coupling coefficients with abstract 3j | symmetry of the loop body, linearity of sums |
| C18 | same | loop bounds |
| C19 | same | block index arithmetic |
| C20 | anisotropic coefficients with abstract 3j | comparison of both; negative witness for odd spin sum |
| C21 | SWIG argument passing | negative witness, partial for the isotropic components |
| C22 | Toeplitz fill | region arithmetic; negative witness for overlapping regions |
| C23 | `_toeplitz_sanity`, `toeplitz_wrap` | omega |
| C24 | index sets of `drc3jj_000`/`drc3jj` | omega; negative witness |
| C25 | length checks along the call chain | decision logic; negative witness |
| C26 | covariance loops | finite table symmetry (complete case analysis) and re-indexing of sums |
| C27 | same | exchange of sums |
| C28 | same, with the initial memory as parameter | exact set of written entries; negative witness |
| C29 | same | linearity, decision logic |
| C30 | covariance FITS | round trip, prefixes |
| C31 | search loop | induction on doubling |
| C32 | ring formulas | arithmetic |
| C33 | index formula | triangular number arithmetic |
| C34 | pad/unpad, flips, dot | list lemmas |
| C35 | records of geometry | case analysis |
| C36 | weighted inner products | linear algebra (positive semidefinite kernel argument) |
| C37 | spectral formula with given eigen-decomposition | orthonormality; negative witness for zero matrix |
| C38 | recursion in a module | induction on n |
| C39 | double sums | splitting the diagonal |
| C40 | search loop | induction; negative witness with gaps |
| C41 | mode loops | equality of filtered sets, uses C40 |
| C42 | flat apodisation loops | minimum over patch = minimum over map for square pixels; negative witness |
| C43 | `he_query_disc` and apodisation loops over the reals, pixel positions as parameter | bounds, commuting writes |
| C44 | functions with explicit generator state / schedule | negative witnesses, partial |
| C45 | permutation of partial sums | `List.Perm` |
| C46 | setter state machine | induction over calls |
| C47 | `he_in_ring` over the reals | position of the rounded ends modulo the ring; negative witness |
| C48 | rotation formulas | ring with cos²+sin²=1 |
| C49 | decision logic of the pipeline | negative witness, partial |
| C50 | decision logic of checks | negative witness, partial |
| C51 | masking formulas | ring / nlinarith |
| C52 | coupling matrices | re-indexing; symmetry of the products of 3j symbols |
| C53 | covariance loops | bilinear form of the index table, rotation of one argument |
| C54 | covariance loops | parity of the index table |
| C55 | checks of `NmtMapInfo` and `_SHTInfo.from_rectpix` over the reals | floor inequalities from the tolerances |
| C56 | as C43, with the positions of the ring tables | completeness of the disc query; negative witness |
| C57 | spline as piecewise linear interpolation, bands | linearity of the interpolation; negative witnesses |
| C58 | Fourier sums on the grid, random skies as functions on a measure space | convolution theorem, reflection of modes; negative witness |
| C59 | curved `NmtField` deprojection, `deprojection_bias`, skies on a measure space | expansion of the mean spectrum after template removal, cyclic rearrangement of sums |
| C60 | same with a noise variance per pixel | same; negative witnesses for EB and for purified fields |
| C61 | `fs_synalm`, `nmt_synfast_flat` with random numbers on a measure space | second moments of the modes through the Cholesky factor and FFT; negative witness for even sizes |
| C62 | generator seeds per thread | set of generators used; negative witness |
| C63 | `nmt_purify_flat` | product rule for the discrete transforms of a mask with two derivatives; negative witness for rectangular pixels |
| C64 | `nmt_field_flat_alloc` with templates | pseudo-inverse lemmas of C37; negative witness |
| C65 | constructors of curved and flat fields | equality of all intermediate arrays; negative witness with purification |
| C66 | `nmt_compute_gaussian_covariance_flat`, `nmt_covar_workspace_flat_init` | Wick sums over pixels compared with the sums over pairs of modes; negative witnesses |
| C67 | same | reflection of pairs of modes; negative witness |
| C68 | `nmt_covar_workspace_init` and python wrapper | sums of 3j products, exchange of pairs; negative witnesses |
| C69 | table of covariance terms | squares; negative witness |
| C70 | decoupled and coupled outputs | equality of loops; negative witness |
| C71 | `nmt_compute_deprojection_bias_flat` | as C59 for Fourier sums |
| C72 | `nmt_couple_cl_l_flat_quick`, unbinned matrix | as C58 at the level of rings; negative witness |
| C73 | `nmt_workspace_flat_write/read` | round trip on the FITS model, formatting of numbers as parameter; negative witnesses |
| C74 | `nmt_covar_workspace_flat_write/read` | same |
| C75 | `drc3jj` with values | loop invariants: the numbers are the symbols times a factor; three-term recurrence and normalisation of Racah's formula; lower bounds on the end symbols |
| C76 | same, and the coupling matrices | column symmetries of Racah's formula; closed form of the zero row; instances of C17-C22, C52, C68 |
| C77 | same | normalisation and orthogonality of the symbols (`wcol_norm`, `wcol_orthogonal`) summed over the textbook form of the matrix |
| C78 | `Mem`: heap of blocks with `malloc`, `free` and access; creation, change, use, files and release of bins, workspaces and covariance workspaces; sessions | separation-logic triples per C function, invariant over sessions by induction; negative witnesses |
| C79 | same | the invariant counts the blocks that no object has; negative witnesses |
| C80 | fields, purification, coupling matrix, deprojection bias and decoupling of the flat sky together | second moments of the purified coefficients; composition of the lemmas of C58, C63, C71 and C50; negative witness for multipole 0 |
| C81 | `Sky/Workspace` (workspace from two fields), fields, purification, coupling matrix, decoupling of the curved sky together | `Sky/Spec`: products of functions on the sphere by Gaunt integrals, isotropic skies; orthogonality of the Wigner symbols (`Wigner/RowNorm`) turns second moments of the masked coefficients into the kernel of the coupling matrix, for every pair of spins and purification weights |
| C82 | `Sky/CatalogModel` (workspace from two catalogs), catalogs, coupling matrix, decoupling together | `Sky/CatalogSpec`: harmonics at points, values of a field there, uncorrelated noise; each pair of sources is a product of two point masks with the sky, so the mean of its term is the kernel of C81 with the mask spectrum of the pair; sums over pairs; witness for the default `lmax_mask` with two sources at the poles |
| C83 | anisotropic masks: fields, workspace, wrapper, C library and decoupling of the curved sky together | `Sky/AnisoSpec`: the weighted field is `m P + A conj(P)` with `m` of spin 0 and `A` of spin `2 s`; second moments of products of spins as in C81; the sums over `m` give the kernels of `nmt_compute_coupling_matrix_anisotropic` with `racah`; witness with an artificial transform for which the exchanged spectra `0B` and `E0` matter |
| C84 | fields, `compute_coupled_cell`, covariance workspace, `gaussian_covariance` and decoupling of the curved sky together | `SkyCov/Spec`: complex random variables with the fourth moments of Gaussian ones (`IsserlisOn`), Gaussian isotropic skies; `SkyCov/Lemmas`: covariance of two pseudo-spectra as a sum over `m`, `m'` of products of second moments; with a mask that is 1 everywhere all Wigner symbols have a zero column; `SkyCov/Decouple`: a bandpower is a linear combination of pseudo-spectra, so the sandwich of C27 is exact whenever the pseudo-spectra are; witness of spin 1 with random dipoles |
| C85 | fields of white noise, `compute_coupled_cell`, covariance workspace, `gaussian_covariance` and decoupling together | `SkyCov/NoiseSpec`: transforms as sums over pixels, white noise with Gaussian fourth moments; `SkyCov/NoiseLemmas`, `NoiseProps`: second moments of the coefficients are the coefficients of the product of two masks, so that by the argument of C81 the covariance is a sum over the spectra of products of masks; `SkyCov/Noise`: comparison with the elements of the covariance loops; `SkyCov/NoiseExample`: one pixel at the pole |
| C86 | `NmtField` with templates, `deprojection_bias`, workspace and `compute_full_master` on the sphere together | `Sky/TemplLemmas`: isotropic skies have the pixel covariance C59 asks for, contaminants drop out of the coefficients; `Sky/TemplProps`: C59 for the difference to the clean fields and C81 for these; `Sky/TemplExample`: four pixels, one template and a beam |
| C87 | `nmtFieldClustering`, `compute_coupled_cell`, mask spectrum | `Cluster/Spec`: sources at random positions; sums over pairs (C39) and independence; negative witnesses |
| C88 | `MemFlat`: allocation, use and release of the structures behind the flat-sky classes, their files, sessions; same heap as C78 | triples per C function, invariant over sessions by induction; negative witness for the wrong workspace |
| C89 | same | the invariant counts the blocks that no object has; exact losses of failing calls |
| C90 | Sky/Fkp.lean | solving with a multiple of the unit matrix; sum rules of the 3j symbols (C77) for the response, the highest symbol not zero for the loss at the end |
| C91 | Units/Props.lean, Units/Covar.lean | every step is homogeneous in the masks, including the calculus of eigenvalues behind the pseudo-inverse and the branches of the Toeplitz approximation; solutions with a multiple of a matrix |
| C92 | Angle/Props.lean, Angle/Example.lean | constructor and spectra commute with rotations of the components; blocks of the coupling matrix have the form `x + y J` (`HasForm`), which commutes with rotations; uniqueness of the solution; negative witness with one pixel for fields with purified B modes only |
| C93 | `Sky/AnyModel` (workspaces and pipeline for fields of either kind), catalogs, constructor of fields, coupling matrix, decoupling together | `Sky/AnyLemmas`, `Sky/AnyProps`, `Sky/AnyWorkspace`: the coefficients of a catalog are those of a sky times a mask made of points, plus noise; the mask of the map has a band limit, so only that part of the mask of points counts; then the kernel of C81 |
| C94 | `Sky/AnyModel` | no branch of `deprojection_bias` returns for lightweight fields |
| C95 | Symm/Props.lean, Symm/Example.lean | every step of the constructor and of the spectra commutes with the symmetry; coupling matrices have no entries between rows of different parity (`KeepsSigns`); uniqueness of the solution |
| C96 | Flat/TableProps.lean, Flat/TableExample.lean | the binary search of the sampled function finds the segment that contains the argument; the value at the last sample is the constant used above it; partial: false at the last multipole and for samples that cannot be interpolated |
| C97 | FlatSym/Field.lean, FlatSym/Props.lean, FlatSym/Example.lean | a movement multiplies Fourier coefficients by a phase (and conjugates them for a turn); rotation to E and B, purification and template removal commute with it; products of two coefficients and scalar products of maps do not change |
| C98 | Teb/Lemmas.lean, Teb/Props.lean, Teb/Example.lean | the mask spectrum of all blocks is proportional to the separate ones, beams too, so the joint binned matrix is block diagonal with multiples of the separate matrices (from C19); a solution of the joint equations is put together from the separate ones; partial: false for different masks or beams, odd spin, anisotropic masks |
| C99 | FlatUnits/Field.lean, FlatUnits/Props.lean, FlatUnits/Example.lean | every step of the C code is homogeneous in the mask: the matrix of the templates scales with the square, its pseudo-inverse with the inverse square (the threshold is relative), everything linear with the number; `deprojOf` is the deprojection bias of the model of C71, passed to the model of the whole pipeline of C58 |
| C100 | FlatTeb/Props.lean, FlatTeb/Example.lean | the factors of the seven spectra are those of the separate workspaces, with one product of masks and beams for all; the matrix is block diagonal with multiples of the separate ones, and the lemmas of C98 about such matrices apply; partial: false for different masks or beams |
| C101 | FlatAngle/Props.lean, FlatAngle/Example.lean | constructor, pseudo-spectra and bias commute with rotations of the components; the factors of the four spectra commute with rotations of either index (`Exchanges`), and so does the binned matrix; uniqueness of the solution; negative witness with constant maps for fields with purified B modes only |
| C102 | FlatAngle/Covar.lean, FlatAngle/CovarProps.lean, FlatAngle/Example.lean | every element of the covariance of pseudo-spectra is a sum of products of input spectra, each index of which rotates; binning is linear; the inverse of the binned coupling matrix commutes with rotations because the matrix does (uniqueness of the solution) |
| C103 | Angle/Covar.lean, Angle/CovarExample.lean | the argument of C102 with the blocks of the binned coupling matrix of C92 (`HasForm`); lists of multipoles of bands are summed on both sides |
| C104 | Span/Spec.lean, Span/Lemmas.lean, Span/Bias.lean, Span/Props.lean, Span/Example.lean | what is removed from a map is its orthogonal projection on the span, whatever generalised inverse of the scalar products is used; every sum over pairs of templates with the pseudo-inverse is a trace: a sum over pixels of a bilinear form of what is removed from the map that is one in this pixel |
| C105 | Span/FlatSpec.lean, Span/FlatLemmas.lean, Span/FlatProps.lean, Span/FlatExample.lean | as C104, for flat maps taken as stacks of pixels of equal area; the bias as a function of what it depends on (`biasFrom`), changed in one field after the other |

Nothing in the list is considered inexpressible; what the model leaves out
(rounding, numerical accuracy of the external transforms, operating-system behaviour of
files below the granularity of a file unit) is named at the theorems.

## Trusted base

* The Lean 4.33.0 kernel and the Mathlib definitions used in statements (finite sums, real numbers,
  `Complex`, `Matrix`, `MeasureTheory.integral`, `ProbabilityTheory`).
* Axioms: `propext`, `Classical.choice`, `Quot.sound` and nothing else. `AXIOMS.txt` lists for every
  theorem named in `MANIFEST.json` the axioms printed by `#print axioms`. No axioms are declared in
  `/verif`, and `sorry`, `admit`, `native_decide`, `bv_decide` are not used.
* The reading of the code: every model definition cites the lines it models. The correspondence
  between the cited lines and the definition is by inspection, since the code was not run.
* Numbers: `double` is modelled by a field or by the real numbers. Statements about accuracy are not
  made. Where the code branches on a floating point comparison, the model branches on the exact one;
  in C24 both outcomes of every such test are allowed. NaN is modelled only in C46 and as the
  "not finite" result in C36 and C64.

### Assumptions about code outside the repository

| external | where | assumption (hypothesis of the theorems) |
|----------|-------|------------|
| GSL LU decomposition and solve | Master, Covar, Flat | `L.Correct`: for an invertible matrix the solution of the linear system is returned; nothing for singular ones |
| numpy/LAPACK `eigh` and `inv`, GSL symmetric eigensolver | Field, Flat | orthonormal eigenvectors, `A = V diag(w) V^T` |
| spherical harmonic transforms (healpy, ducc0) | Field | linear maps between maps and coefficients of the stated sizes; in C39 the addition theorem at zero separation |
| the same, for C81 | Sky | `Observed`: for the skies and the mask of the theorem, the transforms of the products of maps with the mask and its derivatives are the coefficients of the products of the functions (no pixelisation error, no signal above `lmax`); `ReadsTriangle`: transforms to maps read only coefficients with `m ≤ l ≤ lmax` |
| the same, for C82 | Sky | `Spherical`: complex conjugation, and products of harmonics of one spin are sums of those of spin zero with Gaunt coefficients; `UsesHarmonics`: the transform of a source is its value times the conjugate harmonics. `PoleExample.spherical` proves them for the poles and every spin |
| the same, for C83 | Sky | `AnisoFieldsOf`: the transform of the weighted maps has the coefficients of `m P + A conj(P)` (`AnisoMaskedBy`), with the relation between spins ±s and E/B of healpy and ducc (`spinCoef`), and the parts of the mask have the coefficients `w`, `wa` |
| the same, for C84 | SkyCov | `FieldsOf` as in C81 with a mask whose coefficients are those of the constant 1 (`OneEverywhere`); skies have the fourth moments of Gaussian variables (`GaussianSkies`) |
| the same, for C85 | SkyCov | `PixelSums`: transforms without iterations are sums over pixels with harmonics that obey `Spherical` (as in C82); `WhiteNoise`: pixels independent, fourth moments of Gaussian variables |
| the same, for C86 | Sky | `AdjointOf`: analysis is the adjoint of synthesis with the pixel areas as weights (with the `n_iter` of the fields); maps are the synthesis of the skies; `AnalysisLinear`, `Shaped`, `ReadsTriangle`, exact eigenvalues, as before |
| the same, for C87 | Cluster | the harmonics are integrable functions with `Normalised` (the addition theorem at zero separation); positions are independent random variables |
| the same, for C88, C89 | MemFlat | as for C78; the splines of GSL get sorted abscissae and enough of them (GSL ends the process otherwise); arrays of pointers filled in one loop are filled one after the other; buffers of threads are allocated once |
| the same, for C90 | Sky.Fkp | the coefficients of the masks are those the code computes, and the pixels integrate the product of the masks exactly (Parseval); the linear solver is exact |
| the same, for C91 | Units.Field | `Sht.Homogeneous`: transforms and padding commute with the multiplication by numbers; the eigenvalue decomposition and the linear solver are exact |
| the same, for C92 | Angle.Field | `Sht.Turns`: transforms of fields with spin and padding commute with rotations of the two components (true of spin harmonics, for which E and B are turned by the angle that turns Q and U), transforms of scalars are linear; the linear solver is exact |
| the same, for C95 | Symm.Field | `FieldEnv.HasSym`: the transforms, padding and pixel areas commute with the symmetry `GridSym`, which acts on coefficients additively, commutes with factors that depend on the multipole only and leaves spectra as they are (true of rotations and reflections of the sphere that map the grid to itself); transforms of scalars are linear; the linear solver is exact |
| the same, for C96 | Flat.CoupleModel | `gsl_spline_alloc` and `gsl_spline_init` call the default error handler of GSL, which ends the process, for fewer than two samples and for abscissae that do not increase strictly (as documented by GSL and visible in its source) |
| the same, for C97 | FlatSym.Field | `FlatEnv.HasMove`: the inverse FFT commutes with cyclic movements and with signs, also for arrays that are not the transform of a real map (the derivatives of the mask at the Nyquist frequency); true of the sum over modes (`stdEnv_moves`). For `compute_full_master_flat` with templates the deprojection bias is the parameter `D` of the pipeline model, which `C97_spectra` shows not to change |
| the same, for C98 | Teb.Props | `Sht.Homogeneous`: the transform of a multiple of a map is this multiple of its transform; `LinAlg.Correct` as for C01 |
| the same, for C99 | FlatUnits.Field | `FlatEnv.Homogeneous`: the inverse FFT commutes with the multiplication by real numbers; `Eigen.Correct` and `LinAlg.Correct` as for C91 |
| the same, for C100 | FlatTeb.Props | `LinAlg.Correct` as for C01 |
| the same, for C101 | FlatAngle.Field | `FlatEnv.Linear`: the inverse Fourier transform is linear over the reals (proved of the one that sums over all modes, `stdEnv_linear`); the linear solver is exact |
| the same, for C102 | FlatAngle.CovarProps | `LinAlg.Correct`: inversion and solution of linear systems are exact; nothing is assumed of the transforms |
| the same, for C103 | Angle.Covar | `LinAlg.Correct` for decoupled covariances; nothing is assumed of the transforms and of the Wigner symbols |
| the same, for C104 | Span.Props | `Eigen.Correct`, `AnalysisLinear` and `UnpadLinear` (analysis, synthesis and cutting off the padding are linear), positive pixel areas |
| the same, for C105 | Span.FlatProps | `Eigen.Correct`, `FlatEnv.Linear` (the inverse Fourier transform is linear) |
| the same, for C93 | Sky | those of C81 for the map and of C82 for the catalog; `NoiseApart`: the noise of the sources is not correlated with the sky of the map |
| FFTW | Syn, Flat | the discrete Fourier sums (proved equivalent to the model where it matters, `Syn/Fft.lean`, C48) |
| Wigner 3j symbols | Coupling, Covar | a function with the symmetries listed in the hypotheses of each theorem. Proved for `drc3jj` and `drc3jj_000` in exact arithmetic (C75, C76); rounding is not modelled |
| cfitsio | Files, Covar, Flat | a file is a list of units (header keys, arrays); a failed call sets a status and later calls do nothing; an interrupted write leaves a prefix (`Files/Fits.lean`) |
| `printf("%.15lG")` and `strtod` as done by cfitsio for header keys | C73 | a rounding function `f` with `f (f x) = f x` |
| OpenMP | Par, Syn | `Par/Model.lean`: any distribution of iterations, any interleaving, critical sections are atomic |
| GSL random numbers | Syn | a generator is a function of seed and position; for C61 independent numbers of mean zero and the stated variance |
| astropy WCS | Maps | linear relation between pixels and angles for CAR maps |
| numpy broadcasting, SWIG typemaps | all | the sizes passed are those of the arrays; size checks of the typemaps (`numpy.i`) are part of the model where a property depends on them (C29, C50) |

### What is modelled

Lines of `/repo` not named here are cited in a model definition. Not modelled:

| file | lines | content |
|------|-------|---------|
| pymaster/bins.py | 14-160, 174-248 in part | documentation of the class; argument handling is in the cited parts |
| pymaster/covariance.py | 1-148 in part, 240-249 | documentation |
| pymaster/field.py | 1-110, 379-390, 413-431, 796-805 | documentation, import, plotting helpers |
| pymaster/namaster.i | 1-57, 66-110, 157-175, 827-839 | declarations for SWIG |
| pymaster/numpy.i | except 1996-2015 | array conversion (third-party file) |
| pymaster/utils.py | 1-41, 801-810 | imports, documentation |
| src/flatsky_utils.c | 1-37, 603-657 | allocation, map files (`fs_read_flat_map` is not reachable from python) |
| src/healpix_extra.c | 54-263 | map files and C transforms not reachable from python |
| src/nmt_field_flat.c, nmt_master_flat.c, nmt_covar_flat.c, utils.c | the ranges that free memory | values left behind in released memory (for allocation and release see C78, C79, C88 and C89) |

In the memory models of C78, C79, C88 and C89 an allocation always succeeds, only arrays of pointers have bounds (indices into arrays of
numbers are the subject of C24 and C25), and the values of matrices are left out. Memory of numpy, cfitsio, GSL and healpy is not counted
except for the GSL matrices and permutations that belong to a workspace.

C81 does not cover joint TEB matrices (C19 and C98 reduce them to separate ones), the Toeplitz approximation (C22), anisotropic masks (C20, C21), and a
purified second field combined with a field of spin 1 or above 2 (C52 says what happens there).

C82 needs `lmax_mask ≥ 2 lmax` and multipoles not below the spin (C39). It does not cover `NmtFieldCatalogClustering` (whose `lmax_mask` is always
`lmax`). Cross-spectra of a catalog and a map are C93, which does not need the first condition.

C83 needs an even sum of spins (C20), equal mask spectra `0B` and `E0` (C21; `C83_order_wrong` shows that this is needed), the MASTER normalisation for the bandpowers, and
fields without purification. `C83_purification_ignored` shows that the workspace does not depend on purification if one of the masks is anisotropic.

C84 is about masks that are 1 everywhere. `C84_coupled_partial` and `C84_bandpowers_partial` exclude, for fields with spin, multipoles below 2 or below the spin: the covariance
workspace always has the coefficients of spin 2, so that fields of spin 1 get zero at multipole 1 (`C84_low_zero`, `C84_spin_wrong`).

C85 is about unpurified fields of spins 0 and 2, with `n_iter = n_iter_mask = 0`. `C85_coupled_partial` excludes mixing of E and B (`NoMixing`: EE with BB, EB with BE, EB with EB), and
`C85_bandpowers_partial` four fields with spin, because of `C85_mixing_wrong`; both need a band limit of the masks of the sum of the multipoles, see `C85_default_wrong`.

C86 needs `cl_guess` to be the spectra of the maps, that is the true spectra times both beams: with the true spectra as documented it is false (`C86_beam_wrong`). The templates
are linearly independent inside the mask and not cut by the tolerance, and `n_iter` of the two fields is the one `deprojection_bias` uses.

C87 is about fixed numbers and weights of sources. The mean of the spectrum of a catalog with itself lacks the shot noise times the spectrum of the density (`C87_auto_exact`), so that
unclustered sources have negative power (`C87_auto_wrong`); two catalogs with the same randoms get the shot noise of the randoms, which is not subtracted (`C87_shared_exact`, `C87_shared_wrong`).
`C87_cross` has no exceptions. The mean over random fields behind the density is not modelled (C82 has that for `NmtFieldCatalog`).

## Disagreements found between the code and the properties

Each is a theorem about the model (names end in `_wrong`, `_crashes`, `_lost`, ... as listed in the
manifest notes), so it can be checked against the cited lines.

* 32-bit overflow of flat indices of coupling matrices above 46340 rows (C10), of outputs of covariances (C29).
* Failed `compute_coupling_matrix` or `read_from` loses the workspace (C11); `update_beams`/`update_bins` after
  `read_from` without the unbinned matrix dereferences a null pointer (C12).
* The FKP scale is not stored in files (C13); overlapping bands change through files (C14); older files
  are not readable (C15); interrupted overwriting loses the old file and an interrupted bandpower table is read as garbage (C16).
* Joint TEB workspaces with odd spin have the TT block and the s-s block with the wrong sign (C19, C98); isotropic limit of anisotropic
  matrices has the sign (-1)^(s1+s2) (C20); anisotropic mask spectra are passed in exchanged order (C21).
* Toeplitz region boundaries (C22); over-read of the factorial table and other Wigner buffers (C24).
* Long beams are accepted and then unusable (C25); uninitialised elements of coupled covariances (C28);
  negative spins accepted (C29); nside=1 rejected (C31).
* Zero templates make all values not finite (C36, C37, C64); shot noise subtracted below the spin (C39).
* The default `lmax_mask = lmax` of catalogs truncates the mask spectrum, and spectra are biased: by a factor 3 in the witness (C82).
* The exchanged order of anisotropic mask spectra biases the spectra; purification of the other field is ignored in the workspace (C83).
* The covariance of spectra of spin-1 fields at multipole 1 is zero in `gaussian_covariance`, also for a full-sky mask and the true spectra (C84).
* For white noise the EE-BB covariance of `gaussian_covariance` is exactly -4 times the true one, for all masks; and with the default `lmax_mask = lmax` variances are too small, because
  products of masks are cut at `lmax` although all multipoles up to `2 lmax` contribute (C85).
- `deprojection_bias` and `compute_full_master` take `cl_guess` as "best-guess of the true power spectra" (pymaster/workspaces.py:672-673, 1008-1009) but use it as the spectra of
  the maps, which are smoothed with the beams: with templates and beams the bandpowers are biased (C86).
* Spectra of unclustered sources are negative on average, and not zero for two catalogs with the same randoms (C87).
* Flat band search with gaps (C40), modes with gaps and excluded ranges (C41), apodisation with rectangular pixels (C42),
  smoothing with zero scale and large scales (C43), seeds with several threads (C44, C62), NaN tolerances (C46),
  arcs of almost full width (C47, C56), lightweight fields in `compute_full_master` (C49), flat pipeline with another number of
  spectra (C50), check of anisotropic masks depends on units (C51), purified fields of different spins (C52).
* Flat `bin_cell` is not an average (C57); flat coupling matrix for masks without reflection symmetry (C58);
  deprojection bias of noise (C60); even sizes in `synfast_flat` (C61); purification with rectangular pixels (C63) and with
  signal outside the mask (C65); flat covariances with cuts or different binnings (C66), and of fields with spin
  with the highest wave number along y (C67); catalog fields in covariances (C68);
  sign of EE-BB covariances (C69); coupled covariances multiplied by f_ell (C70); outermost ring of `couple_cell` (C72);
  side lengths in files (C73).
* Purification flags of a spin-0 field given by its mask make the coupling matrix read coefficients that do not exist (C78);
  covariance workspaces never release the outer arrays of their tables and the table of factorials, failed binning schemes, failed
  reads and failed covariances release nothing (C79).
* `compute_full_master_flat` with a workspace made for other spins reads or writes beyond its arrays (C88); flat-sky calls that fail
  in the library release nothing, and `compute_full_master_flat` always fails for lightweight fields (C89).
- The FKP normalisation does not force a unit response to white spectra in bands near the last multipole: multipoles coupled by the masks to
  ones beyond it lose power, so the response is less than one there. It does not undo beams, and uses only the isotropic part of anisotropic
  masks (C90).
* `compute_full_master` always fails for catalogs, because it computes the deprojection bias even without templates (C94).
* Turning the maps of fields with `purify_b` alone does not turn their pseudo-spectra (C92); this is to be expected of the method.
* The coefficients of purified flat-sky fields at multipole 0 are not purified, and the coupling matrix assumes they are (C80).
* C96 is false at the ends of the samples. `nmt_k_function_eval` tests `k>=f->xf` before it interpolates, so at the last multipole the value used above it (zero for beams and spectra) replaces the given one (`C96_beam_last_wrong`, `C96_couple_last_wrong`). A beam or spectrum given at one multipole, or at multipoles that do not increase, ends the process in GSL (`C96_beam_ends_wrong`, `C96_spectra_end_wrong`). `bin_cell` passes its last value as the value above, and is right (`C96_bin_cell`).
* C98 is false for fields with different masks or beams. The C function gets one mask spectrum, that of the two masks, and two beams, and uses them for all blocks, so TT bandpowers are too large by the ratio of the masks and beams and those of the second field too small (`C98_factor_wrong`). For anisotropic masks `compute_coupling_matrix` does not pass `is_teb` on (`C98_anisotropic_wrong`).
* C100 is false for flat-sky fields with different masks or beams, for the same reason as C98 (`C100_factor_wrong`). On the flat sky odd spins give no wrong sign.
* Turning flat-sky maps of fields with `purify_b` alone does not turn their pseudo-spectra (C101, `C101_pure_wrong`); this is to be expected of the method.

## Mutation tests

`seeded/LOG.jsonl` has one line per edited model: definition, edit, claim, theorems that failed to build, theorems
tightened afterwards. The edits were made in a copy outside `/verif`.

C104 and C105 have not been mutation-tested: `seeded/LOG.jsonl` has no entries for them. Commits 10279b8 and 8f73e1f, which added them, do not build (two
structures had the same name); 81a04aa repairs this.
