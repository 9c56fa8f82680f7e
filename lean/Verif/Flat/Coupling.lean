import Verif.Flat.Modes
import Mathlib.Analysis.SpecialFunctions.Complex.Circle
import Mathlib.Algebra.BigOperators.Group.Finset.Sigma

/-!
# Model of the flat-sky transforms, pseudo-spectra and coupling matrices

Models `fs_map2alm` and `fs_alm2cl` (src/flatsky_utils.c:192-236,356-432), `nmt_workspace_flat_new`,
`check_flatsky_infos` and `nmt_compute_coupling_matrix_flat` (src/nmt_master_flat.c:34-539) without the LU
decomposition, and `nmt_decouple_cl_l_flat` (src/nmt_master_flat.c:873-896). Maps are functions of
the pixel indices `x` and `y` (pixel `x+nx*y` in C). FFTW computes the discrete Fourier transform. The parallel sums are
sums of real numbers, for which the order does not matter.
-/

namespace NaMaster

open Real Finset

/-- The modes of a map as pairs `(ix, iy)`. -/
def FlatInfo.modes (fs : FlatInfo) : Finset (ℕ × ℕ) := range fs.nx ×ˢ range fs.ny

/-- The phase `2π(x kx/nx + y ky/ny)` of the Fourier mode `k` at pixel `p`. -/
noncomputable def FlatInfo.phase (fs : FlatInfo) (k p : ℕ × ℕ) : ℝ :=
  2 * π * (p.1 * k.1 / fs.nx + p.2 * k.2 / fs.ny)

/-- `fftw_plan_dft_r2c_2d` with `fftw_execute`: the forward transform without normalisation. -/
noncomputable def FlatInfo.dft (fs : FlatInfo) (f : ℕ × ℕ → ℝ) (k : ℕ × ℕ) : ℂ :=
  ∑ p ∈ fs.modes, f p * Complex.exp (-(fs.phase k p) * Complex.I)

/-- The normalisation of `fs_map2alm` (src/flatsky_utils.c:223). -/
noncomputable def FlatInfo.almNorm (fs : FlatInfo) : ℝ := fs.lx * fs.ly / (2 * π * fs.nx * fs.ny)

/-- `fs_map2alm` for one map of spin 0 (src/flatsky_utils.c:192-236). The array holds the elements with `ix <= nx/2`. -/
noncomputable def FlatInfo.map2alm (fs : FlatInfo) (f : ℕ × ℕ → ℝ) (k : ℕ × ℕ) : ℂ := fs.dft f k * fs.almNorm

/-- `fs_map2alm` for the two maps of a field with nonzero spin (src/flatsky_utils.c:192-236): the transforms of Q and U,
rotated to E and B. For the elements with `ix <= nx/2`, which are those in the array, the wave number of column `ix` is
`ix*dkx`. -/
noncomputable def FlatInfo.map2almSpin (fs : FlatInfo) (spin : ℕ) (q u : ℕ × ℕ → ℝ) (k : ℕ × ℕ) : ℂ × ℂ :=
  qu2eb spin (fs.kx k.1) (fs.ky k.2) (fs.map2alm q k, fs.map2alm u k)

/-- The column of the half-complex array from which column `ix` is read (src/flatsky_utils.c:397-404,
src/nmt_master_flat.c:176-183). -/
def ixHere (nx ix : ℕ) : ℕ := if 2 * ix ≤ nx then ix else nx - ix

/-- The product of two coefficients read for mode `k` from half-complex arrays (src/flatsky_utils.c:407,413,
src/nmt_master_flat.c:184-187). -/
noncomputable def halfProd (nx : ℕ) (a1 a2 : ℕ × ℕ → ℂ) (k : ℕ × ℕ) : ℝ :=
  (a1 (ixHere nx k.1, k.2)).re * (a2 (ixHere nx k.1, k.2)).re + (a1 (ixHere nx k.1, k.2)).im * (a2 (ixHere nx k.1, k.2)).im

/-- The results of a sequence of calls, if all succeed. -/
def Outcome.all {α : Type*} : List (Outcome α) → Outcome (List α)
  | [] => .ok []
  | o :: os => o.bind fun a => (Outcome.all os).bind fun as => .ok (a :: as)

/-- The entry of a table of rows; the value outside is never used. -/
def tableAt (rows : List (List ℤ)) (k : ℕ × ℕ) : ℤ := (rows.getD k.2 []).getD k.1 (-1)

/-- The number of modes in a band, `n_cells` (src/flatsky_utils.c:415, src/nmt_master_flat.c:201). -/
def nCells (fs : FlatInfo) (rows : List (List ℤ)) (ib : ℕ) : ℕ := #{k ∈ fs.modes | tableAt rows k = ib}

/-- `fs_alm2cl` for one pair of coefficient arrays (src/flatsky_utils.c:356-432): the value in band `ib`. -/
noncomputable def fsAlm2cl (fs : FlatInfo) (b : FlatBins ℝ) (c : EllCuts) (a1 a2 : ℕ × ℕ → ℂ) : Outcome (ℕ → ℝ) :=
  (Outcome.all ((List.range fs.ny).map fun iy => alm2clBands fs b c iy)).bind fun rows =>
    .ok (tab b.nBands fun ib =>
      if nCells fs rows ib ≤ 0 then 0
      else (∑ k ∈ fs.modes with tableAt rows k = ib, halfProd fs.nx a1 a2 k) *
        (4 * π * π / (fs.lx * fs.ly) / nCells fs rows ib))

/-- A flat field as far as the coupling matrix is concerned (`nmt_field_flat`, src/nmt_field_flat.c:275-317): geometry,
spin, mask, beam as a function of the multipole, and the purification flags (0 or 1). -/
structure FlatField where
  fs : FlatInfo
  spin : ℕ
  mask : ℕ × ℕ → ℝ
  beam : ℝ → ℝ
  pureE : ℕ
  pureB : ℕ

/-- Number of maps of a field (src/nmt_field_flat.c:286-287). -/
def nmapsOf (spin : ℕ) : ℕ := if spin = 0 then 1 else 2

/-- The index along one axis of the difference of two modes (src/nmt_master_flat.c:304-307). -/
def subIdx (n i j : ℕ) : ℕ := if i < j then i + n - j else i - j

/-- The index of the difference of two modes. -/
def FlatInfo.sub (fs : FlatInfo) (k1 k2 : ℕ × ℕ) : ℕ × ℕ := (subIdx fs.nx k1.1 k2.1, subIdx fs.ny k1.2 k2.2)

/-- `cosarr` and `sinarr` for a spin (src/nmt_master_flat.c:211-243). -/
noncomputable def FlatInfo.angles (fs : FlatInfo) (spin : ℕ) (k : ℕ × ℕ) : ℝ × ℝ :=
  if fs.kmod k.1 k.2 > 0 then csRec (fs.kx k.1 / fs.kmod k.1 k.2) (fs.ky k.2 / fs.kmod k.1 k.2) spin
  else csRec 1 0 spin

/-- `kr` (src/nmt_master_flat.c:284-285,317-321). -/
noncomputable def FlatInfo.kratio (fs : FlatInfo) (k1 k2 : ℕ × ℕ) : ℝ :=
  let kr := if k1 = (0, 0) ∧ k2 = (0, 0) then 1
    else fs.kmod k2.1 k2.2 * (if k1 = (0, 0) then 0 else 1 / fs.kmod k1.1 k1.2)
  kr * kr

/-- The factors multiplying the product of masks and beams in the coupling of spectrum `j` into spectrum `i`
(src/nmt_master_flat.c:326-466), from the cosines and sines of the angle differences for the two spins, the squared ratio
of the multipoles, and the purification flags. `fc[0]`, `fs[0]` are the cosine and the sine; `fc[1]=kr` and `fs[1]=0`. -/
noncomputable def coupFactor (ncls pe1 pb1 pe2 pb2 : ℕ) (c1 s1 c2 s2 kr : ℝ) (i j : ℕ) : ℝ :=
  let fc1 := fun p : ℕ => if p = 0 then c1 else kr
  let fs1 := fun p : ℕ => if p = 0 then s1 else 0
  let fc2 := fun p : ℕ => if p = 0 then c2 else kr
  let fs2 := fun p : ℕ => if p = 0 then s2 else 0
  match ncls, i, j with
  | 1, 0, 0 => 1
  | 2, 0, 0 => fc1 (pe1 + pe2)
  | 2, 0, 1 => -fs1 (pe1 + pe2)
  | 2, 1, 0 => fs1 (pb1 + pb2)
  | 2, 1, 1 => fc1 (pb1 + pb2)
  | 4, 0, 0 => fc1 pe1 * fc2 pe2
  | 4, 0, 1 => -(fc1 pe1 * fs2 pe2)
  | 4, 0, 2 => -(fs1 pe1 * fc2 pe2)
  | 4, 0, 3 => fs1 pe1 * fs2 pe2
  | 4, 1, 0 => fc1 pe1 * fs2 pb2
  | 4, 1, 1 => fc1 pe1 * fc2 pb2
  | 4, 1, 2 => -(fs1 pe1 * fs2 pb2)
  | 4, 1, 3 => -(fs1 pe1 * fc2 pb2)
  | 4, 2, 0 => fs1 pb1 * fc2 pe2
  | 4, 2, 1 => -(fs1 pb1 * fs2 pe2)
  | 4, 2, 2 => fc1 pb1 * fc2 pe2
  | 4, 2, 3 => -(fc1 pb1 * fs2 pe2)
  | 4, 3, 0 => fs1 pb1 * fs2 pb2
  | 4, 3, 1 => fs1 pb1 * fc2 pb2
  | 4, 3, 2 => fc1 pb1 * fs2 pb2
  | 4, 3, 3 => fc1 pb1 * fc2 pb2
  | 7, 0, 0 => 1
  | 7, 1, 1 => fc1 (pe1 + pe2)
  | 7, 1, 2 => -fs1 (pe1 + pe2)
  | 7, 2, 1 => fs1 (pb1 + pb2)
  | 7, 2, 2 => fc1 (pb1 + pb2)
  | 7, 3, 3 => fc1 pe2 * fc2 pe2
  | 7, 3, 4 => -(fc1 pe2 * fs2 pe2)
  | 7, 3, 5 => -(fs1 pe2 * fc2 pe2)
  | 7, 3, 6 => fs1 pe2 * fs2 pe2
  | 7, 4, 3 => fc1 pe2 * fs2 pb2
  | 7, 4, 4 => fc1 pe2 * fc2 pb2
  | 7, 4, 5 => -(fs1 pe2 * fs2 pb2)
  | 7, 4, 6 => -(fs1 pe2 * fc2 pb2)
  | 7, 5, 3 => fs1 pb2 * fc2 pe2
  | 7, 5, 4 => -(fs1 pb2 * fs2 pe2)
  | 7, 5, 5 => fc1 pb2 * fc2 pe2
  | 7, 5, 6 => -(fc1 pb2 * fs2 pe2)
  | 7, 6, 3 => fs1 pb2 * fs2 pb2
  | 7, 6, 4 => fs1 pb2 * fc2 pb2
  | 7, 6, 5 => fc1 pb2 * fs2 pb2
  | 7, 6, 6 => fc1 pb2 * fc2 pb2
  | _, _, _ => 0

/-- `spin_1` and `spin_2` (src/nmt_master_flat.c:95-110): the spins whose angles are used. -/
def coupSpins (ncls s1 s2 : ℕ) : ℕ × ℕ :=
  let p := if s1 = 0 then (if s2 = 0 then (0, 0) else (s2, 0)) else (s1, s2)
  if ncls = 7 then (p.1, p.1) else p

/-- The cosine of the difference of the angles of two modes (src/nmt_master_flat.c:313,315). -/
noncomputable def FlatInfo.cdiff (fs : FlatInfo) (spin : ℕ) (k1 k2 : ℕ × ℕ) : ℝ :=
  (fs.angles spin k1).1 * (fs.angles spin k2).1 + (fs.angles spin k1).2 * (fs.angles spin k2).2

/-- The sine of the difference of the angles of two modes (src/nmt_master_flat.c:314,316). -/
noncomputable def FlatInfo.sdiff (fs : FlatInfo) (spin : ℕ) (k1 k2 : ℕ × ℕ) : ℝ :=
  (fs.angles spin k1).2 * (fs.angles spin k2).1 - (fs.angles spin k1).1 * (fs.angles spin k2).2

/-- What a pair of modes contributes to the coupling of spectrum `j` into spectrum `i`
(src/nmt_master_flat.c:297-466), with `maskprod` read at the difference of the modes. -/
noncomputable def coupTerm (f1 f2 : FlatField) (ncls : ℕ) (maskprod : ℕ × ℕ → ℝ) (i j : ℕ) (k1 k2 : ℕ × ℕ) : ℝ :=
  let fs := f1.fs
  let s := coupSpins ncls f1.spin f2.spin
  coupFactor ncls f1.pureE f1.pureB f2.pureE f2.pureB (fs.cdiff s.1 k1 k2) (fs.sdiff s.1 k1 k2) (fs.cdiff s.2 k1 k2)
      (fs.sdiff s.2 k1 k2) (fs.kratio k1 k2) i j *
    (maskprod (fs.sub k1 k2) * (f1.beam (fs.kmod k2.1 k2.2) * f2.beam (fs.kmod k2.1 k2.2)))

/-- A flat workspace (src/nmt_master_flat.c:34-68): geometry, ranges, number of spectra, bands, numbers of modes, the
binned coupling matrix and the one for rings of multipoles. The element of the former for band `b1` of spectrum `i` and band `b2` of
spectrum `j`, in C at row `ncls*b1+i` and column `ncls*b2+j`, is `binned i b1 j b2`; that of the latter for ring `ir` of spectrum `j`, in
column `ncls*ir+j`, is `unbinned i b1 j ir`. The last members are the other ones of the geometry, the end of the last band, and `pe1`,
`pe2`, `pb1`, `pb2`. -/
structure WspFlat where
  fs : FlatInfo
  cuts : EllCuts
  ncls : ℕ
  bin : FlatBins ℝ
  isTeb : Bool
  nCells : ℕ → ℕ
  binned : ℕ → ℕ → ℕ → ℕ → ℝ
  unbinned : ℕ → ℕ → ℕ → ℕ → ℝ
  rings : RingInfo
  lmax : ℝ
  pure : ℕ × ℕ × ℕ × ℕ

open Classical in
/-- `nmt_compute_coupling_matrix_flat` (src/nmt_master_flat.c:79-539). A scheme without bands makes
`nmt_workspace_flat_new` read `ell_f_list[-1]` (line 50). -/
noncomputable def couplingFlat (f1 f2 : FlatField) (b : FlatBins ℝ) (c : EllCuts) (isTeb : Bool) : Outcome WspFlat :=
  if f1.fs ≠ f2.fs then .raises .runtime
  else if isTeb ∧ ¬ (f1.spin = 0 ∧ f2.spin ≠ 0) then .raises .runtime
  else if b.nBands = 0 then .crash
  else
    let ncls := if isTeb then 7 else nmapsOf f1.spin * nmapsOf f2.spin
    let fs := f1.fs
    let maskprod := halfProd fs.nx (fs.map2alm f1.mask) (fs.map2alm f2.mask)
    (Outcome.all ((List.range fs.ny).map fun iy => couplingBands fs b c iy)).bind fun rows =>
    (Outcome.all ((List.range fs.ny).map fun iy => couplingBandsNocut fs b iy)).bind fun rowsNocut =>
    .ok {
      fs := fs, cuts := c, ncls := ncls, bin := b, isTeb := isTeb
      nCells := tab b.nBands fun ib => nCells fs rows ib
      binned := fun i b1 j b2 =>
        if i < ncls ∧ j < ncls ∧ b1 < b.nBands ∧ b2 < b.nBands then
          (∑ k1 ∈ fs.modes with tableAt rows k1 = b1, ∑ k2 ∈ fs.modes with tableAt rowsNocut k2 = b2,
            coupTerm f1 f2 ncls maskprod i j k1 k2) *
          (if nCells fs rows b1 > 0 then 4 * π * π / (fs.lx * fs.lx * fs.ly * fs.ly) / nCells fs rows b1 else 0)
        else 0
      unbinned := fun i b1 j ir =>
        if i < ncls ∧ j < ncls ∧ b1 < b.nBands ∧ ir < fs.nEll then
          (∑ k1 ∈ fs.modes with tableAt rows k1 = b1, ∑ k2 ∈ fs.modes with fs.ring k2.1 k2.2 = ir,
            coupTerm f1 f2 ncls maskprod i j k1 k2) *
          (if nCells fs rows b1 > 0 then 4 * π * π / (fs.lx * fs.lx * fs.ly * fs.ly) / nCells fs rows b1 else 0)
        else 0
      rings := fs.rings
      lmax := b.ellf (b.nBands - 1)
      pure := (f1.pureE, f2.pureE, f1.pureB, f2.pureB) }

end NaMaster
