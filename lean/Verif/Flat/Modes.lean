import Verif.Flat.BinsProps
import Mathlib.Analysis.SpecialFunctions.Trigonometric.Basic
import Mathlib.Analysis.SpecialFunctions.Sqrt
import Mathlib.Algebra.BigOperators.Group.Finset.Basic
import Mathlib.Algebra.Order.Floor.Ring

/-!
# Model of the Fourier modes of flat maps

Models the mode loops of `fs_alm2cl` (src/flatsky_utils.c:356-432) and of
`nmt_compute_coupling_matrix_flat` (src/nmt_master_flat.c:79-539), and the rotations `qu2eb` and `eb2qu`
(src/flatsky_utils.c:77-190). Floating-point numbers are real numbers. A half-complex array of Fourier coefficients, in
C the elements `ix+(nx/2+1)*iy` with `ix <= nx/2` and `iy < ny`, is a function of `ix` and `iy`.
-/

namespace NaMaster

open Real

/-- The dimensions of a flat map, `nmt_flatsky_info` (src/nmt_field_flat.c:37-47). -/
structure FlatInfo where
  nx : ℕ
  ny : ℕ
  lx : ℝ
  ly : ℝ

/-- The wave number of the mode with index `i` along an axis with `n` pixels and length `l`
(src/flatsky_utils.c:389-404, src/nmt_master_flat.c:136-150,163-183). -/
noncomputable def waveNum (n : ℕ) (l : ℝ) (i : ℕ) : ℝ :=
  if 2 * i ≤ n then i * (2 * π / l) else -((n : ℝ) - i) * (2 * π / l)

/-- Wave number along x of mode `ix`. -/
noncomputable def FlatInfo.kx (fs : FlatInfo) (ix : ℕ) : ℝ := waveNum fs.nx fs.lx ix

/-- Wave number along y of mode `iy`. -/
noncomputable def FlatInfo.ky (fs : FlatInfo) (iy : ℕ) : ℝ := waveNum fs.ny fs.ly iy

/-- Modulus of the wave vector (src/flatsky_utils.c:409, src/nmt_master_flat.c:189). -/
noncomputable def FlatInfo.kmod (fs : FlatInfo) (ix iy : ℕ) : ℝ := √(fs.kx ix * fs.kx ix + fs.ky iy * fs.ky iy)

/-- The width of a ring of multipoles, `dell` (src/nmt_field_flat.c:48-56): the smaller of the two spacings of wave numbers. The lengths
are not negative (pymaster/field.py:633-634), and taken to be positive. -/
noncomputable def FlatInfo.dell (fs : FlatInfo) : ℝ := min (2 * π / fs.lx) (2 * π / fs.ly)

/-- `kmax` (src/nmt_field_flat.c:50-53); `nx/2` is a division of integers. -/
noncomputable def FlatInfo.kmax (fs : FlatInfo) : ℝ :=
  √((2 * π / fs.ly * (fs.ny / 2 : ℕ)) * (2 * π / fs.ly * (fs.ny / 2 : ℕ)) + (2 * π / fs.lx * (fs.nx / 2 : ℕ)) * (2 * π / fs.lx * (fs.nx / 2 : ℕ)))

/-- The number of rings, `n_ell` (src/nmt_field_flat.c:56-58): the loop `while((n_ell+1)*dell<=kmax) n_ell++` from 0, which ends with the
integer part of the quotient (`lt_nEll`). -/
noncomputable def FlatInfo.nEll (fs : FlatInfo) : ℕ := ⌊fs.kmax / fs.dell⌋₊

/-- The other members of `nmt_flatsky_info` (include/namaster.h): number of pixels, their area, width of the rings and its inverse, number
of rings and their lower ends. -/
structure RingInfo where
  npix : ℕ
  pixsize : ℝ
  dell : ℝ
  iDell : ℝ
  nEll : ℕ
  ellMin : ℕ → ℝ

/-- Their values for a map (src/nmt_field_flat.c:44-61). -/
noncomputable def FlatInfo.rings (fs : FlatInfo) : RingInfo :=
  ⟨fs.nx * fs.ny, fs.lx * fs.ly / (fs.nx * fs.ny : ℕ), fs.dell, 1 / fs.dell, fs.nEll, tab fs.nEll fun i => i * fs.dell⟩

/-- The ring of a multipole (src/nmt_master_flat.c:216-218,754-755); -1 beyond the last ring. -/
noncomputable def RingInfo.index (r : RingInfo) (k : ℝ) : ℤ := if (⌊k * r.iDell⌋₊ : ℤ) ≥ r.nEll then -1 else ⌊k * r.iDell⌋₊

/-- The ring of a mode, `i_ring` (src/nmt_master_flat.c:216-218). -/
noncomputable def FlatInfo.ring (fs : FlatInfo) (ix iy : ℕ) : ℤ := fs.rings.index (fs.kmod ix iy)

/-- The ranges `ell_cut_x` and `ell_cut_y` (pymaster/workspaces.py:523-546). -/
structure EllCuts where
  x0 : ℝ
  x1 : ℝ
  y0 : ℝ
  y1 : ℝ

/-- The default ranges (pymaster/workspaces.py:523-524). -/
def defaultCuts : EllCuts := ⟨1, -1, 1, -1⟩

open Classical in
/-- The band of each mode in row `iy` of the loop of `fs_alm2cl` (src/flatsky_utils.c:386-421), `-1` for modes that do
not enter; `xs` are the columns still to be visited and `ik` the result of the last look-up. Cut modes are skipped
before the look-up. -/
noncomputable def alm2clRow (fs : FlatInfo) (b : FlatBins ℝ) (c : EllCuts) (iy : ℕ) : ℤ → List ℕ → Outcome (List ℤ)
  | _, [] => .ok []
  | ik, ix :: xs =>
    if fs.kx ix ≥ c.x0 ∧ fs.kx ix ≤ c.x1 then
      (alm2clRow fs b c iy ik xs).bind fun r => .ok (-1 :: r)
    else
      (searchFast b (fs.kmod ix iy) ik).bind fun ik => (alm2clRow fs b c iy ik xs).bind fun r => .ok (ik :: r)

open Classical in
/-- The bands of all modes of row `iy` in `fs_alm2cl` (src/flatsky_utils.c:386-421). -/
noncomputable def alm2clBands (fs : FlatInfo) (b : FlatBins ℝ) (c : EllCuts) (iy : ℕ) : Outcome (List ℤ) :=
  if fs.ky iy ≥ c.y0 ∧ fs.ky iy ≤ c.y1 then .ok (List.replicate fs.nx (-1))
  else alm2clRow fs b c iy 0 (List.range fs.nx)

open Classical in
/-- `i_band[index]` for the look-up result `ik` (src/nmt_master_flat.c:196-205). -/
noncomputable def cutBand (fs : FlatInfo) (c : EllCuts) (iy ix : ℕ) (ik : ℤ) : ℤ :=
  if (fs.ky iy ≤ c.y1 ∧ fs.ky iy ≥ c.y0) ∨ (fs.kx ix ≤ c.x1 ∧ fs.kx ix ≥ c.x0) then -1
  else if ik ≥ 0 then ik else -1

/-- `i_band_nocut` in row `iy` of the coupling matrix loop (src/nmt_master_flat.c:165-206): every mode is looked up. -/
noncomputable def couplingBandsNocut (fs : FlatInfo) (b : FlatBins ℝ) (iy : ℕ) : Outcome (List ℤ) :=
  searchLoop b 0 ((List.range fs.nx).map fun ix => fs.kmod ix iy)

/-- `i_band` in row `iy` of the coupling matrix loop (src/nmt_master_flat.c:165-206). -/
noncomputable def couplingBands (fs : FlatInfo) (b : FlatBins ℝ) (c : EllCuts) (iy : ℕ) : Outcome (List ℤ) :=
  (couplingBandsNocut fs b iy).bind fun iks => .ok (List.zipWith (fun ix ik => cutBand fs c iy ix ik) (List.range fs.nx) iks)

/-! ## Rotations -/

/-- The direction of a mode, `cph` and `sph` (src/flatsky_utils.c:101-112,158-169; also src/nmt_master_flat.c:211-219,
where the test is on the modulus). -/
noncomputable def modeDir (kx ky : ℝ) : ℝ × ℝ :=
  let kmod2 := kx * kx + ky * ky
  if kmod2 ≤ 0 then (1, 0) else (kx * (1 / √kmod2), ky * (1 / √kmod2))

/-- The loop `while(s<spin)` giving `csphi` and `ssphi` (src/flatsky_utils.c:114-121,171-178,
src/nmt_master_flat.c:221-243). -/
def csRec (c s : ℝ) : ℕ → ℝ × ℝ
  | 0 => (1, 0)
  | n + 1 => ((csRec c s n).1 * c - (csRec c s n).2 * s, (csRec c s n).2 * c + (csRec c s n).1 * s)

/-- `sig_overall` (src/flatsky_utils.c:79-81,136-138). -/
def sigOverall (spin : ℕ) : ℂ := if spin = 0 then 1 else -1

/-- `qu2eb` for one mode (src/flatsky_utils.c:77-132). `cpow(I,spin)` is the exact power. -/
noncomputable def qu2eb (spin : ℕ) (kx ky : ℝ) (a : ℂ × ℂ) : ℂ × ℂ :=
  let sig := sigOverall spin * Complex.I ^ spin
  let cs := csRec (modeDir kx ky).1 (modeDir kx ky).2 spin
  (sig * (a.1 * cs.1 - a.2 * cs.2), sig * (a.1 * cs.2 + a.2 * cs.1))

/-- `eb2qu` for one mode (src/flatsky_utils.c:134-190). -/
noncomputable def eb2qu (spin : ℕ) (kx ky : ℝ) (a : ℂ × ℂ) : ℂ × ℂ :=
  let sig := sigOverall spin * (-Complex.I) ^ spin
  let cs := csRec (modeDir kx ky).1 (modeDir kx ky).2 spin
  (sig * (a.1 * cs.1 + a.2 * cs.2), sig * (-a.1 * cs.2 + a.2 * cs.1))

end NaMaster
