import Verif.Flat.Modes
import Verif.Maps.Disc
import Mathlib.Algebra.Order.Floor.Semiring

/-!
# Model of the flat-sky apodisation

Models `src/nmt_mask_flat.c`, `apomask_flat` (pymaster/namaster.i:371-381) and `mask_apodization_flat`
(pymaster/utils.py:549-573). Floating-point numbers are real numbers; numbers of pixels in a patch are not bounded by the
size of `int`. The smoothing of the type "Smooth" (Fourier transforms and a Gaussian) is a parameter.
-/

namespace NaMaster

open Real

/-- `nx_patch`, `ny_patch`: `(int)(1.2*r/d)` for a radius `r > 0` and a pixel size `d > 0` (src/nmt_mask_flat.c:28-29,99-100). -/
noncomputable def patchSize (r d : ℝ) : ℕ := ⌊1.2 * r / d⌋₊

/-- A loop over the offsets `k` of a patch along one axis, around pixel `i` of `n`, with `continue` before the first pixel
and `break` after the last (src/nmt_mask_flat.c:49-55,120-126). `f k j` is the body for offset `k` and pixel `j`. -/
def scanRange {α : Type*} (n np i : ℕ) (f : ℕ → ℕ → α → α) : List ℕ → α → α
  | [], a => a
  | k :: ks, a =>
    if (i : ℤ) + k - np < 0 then scanRange n np i f ks a
    else if (i : ℤ) + k - np ≥ n then a
    else scanRange n np i f ks (f k (i + k - np) a)

/-- `rarr[iyy][ixx]` (src/nmt_mask_flat.c:31-39,102-110). -/
noncomputable def patchDist (dx dy : ℝ) (nxp nyp ixx iyy : ℕ) : ℝ :=
  let y := ((iyy : ℝ) - nyp) * dy
  let x := ((ixx : ℝ) - nxp) * dx
  √(x * x + y * y)

open Classical in
/-- `rmin` of pixel `(ix, iy)` after the loops over the patch (src/nmt_mask_flat.c:46-60). -/
noncomputable def flatRmin (fs : FlatInfo) (mask : ℕ → ℝ) (dx dy : ℝ) (nxp nyp ix iy : ℕ) : ℝ :=
  scanRange fs.ny nyp iy (fun iyy jy r =>
    scanRange fs.nx nxp ix (fun ixx jx r =>
      if mask (jx + fs.nx * jy) ≤ 0 then
        (if patchDist dx dy nxp nyp ixx iyy < r then patchDist dx dy nxp nyp ixx iyy else r)
      else r) (List.range (2 * nxp + 1)) r) (List.range (2 * nyp + 1)) 100000

open Classical in
/-- Body of the loops over pixels of `apodize_mask_CX` (src/nmt_mask_flat.c:44-74) for the pixel `ip`, that is `ix + nx*iy`.
Both `dx` and `dy` are `lx/nx` (lines 26-27). -/
noncomputable def apoStepFlat (fs : FlatInfo) (mask : ℕ → ℝ) (aporad : ℝ) (c2 : Bool) (out : ℕ → ℝ) (ip : ℕ) :
    Outcome (ℕ → ℝ) :=
  let dx := fs.lx / fs.nx
  let dy := fs.lx / fs.nx
  if mask ip > 0 then
    let rmin := flatRmin fs mask dx dy (patchSize aporad dx) (patchSize aporad dy) (ip % fs.nx) (ip / fs.nx)
    if rmin < aporad then
      let f := if rmin < 0 then 0 else apoF c2 (rmin * (1 / aporad))
      .ok (Function.update out ip (out ip * f))
    else .ok out
  else .ok out

/-- `apodize_mask_CX` (src/nmt_mask_flat.c:4-80). The pixels are visited in the order `order`. -/
noncomputable def apodizeFlatCX (fs : FlatInfo) (mask : ℕ → ℝ) (aposize : ℝ) (c2 : Bool) (order : List ℕ) :
    Outcome (ℕ → ℝ) :=
  apoLoop (apoStepFlat fs mask (aposize * π / 180) c2) order (tab (fs.nx * fs.ny) mask)

open Classical in
/-- Body of the loops over pixels of `apodize_mask_smooth` (src/nmt_mask_flat.c:113-136). -/
noncomputable def apoStepFlatSmooth (fs : FlatInfo) (mask : ℕ → ℝ) (aporad : ℝ) (out : ℕ → ℝ) (ip : ℕ) : Outcome (ℕ → ℝ) :=
  let xthr := 2.5 * aporad
  let dx := fs.lx / fs.nx
  let dy := fs.lx / fs.nx
  let nxp := patchSize xthr dx
  let nyp := patchSize xthr dy
  if mask ip ≤ 0 then
    .ok (scanRange fs.ny nyp (ip / fs.nx) (fun iyy jy o =>
      scanRange fs.nx nxp (ip % fs.nx) (fun ixx jx o =>
        if patchDist dx dy nxp nyp ixx iyy ≤ xthr then
          Function.update o (jx + fs.nx * jy) (o (jx + fs.nx * jy) * 0)
        else o) (List.range (2 * nxp + 1)) o) (List.range (2 * nyp + 1)) out)
  else .ok out

/-- `apodize_mask_smooth` (src/nmt_mask_flat.c:82-146). `smooth fs aporad m` is the map `m` after the transforms and the
Gaussian (lines 138-140). -/
noncomputable def apodizeFlatSmooth (smooth : FlatInfo → ℝ → (ℕ → ℝ) → ℕ → ℝ) (fs : FlatInfo) (mask : ℕ → ℝ)
    (aposize : ℝ) (order : List ℕ) : Outcome (ℕ → ℝ) :=
  (apoLoop (apoStepFlatSmooth fs mask (aposize * π / 180)) order (tab (fs.nx * fs.ny) mask)).bind fun m =>
    .ok (tab (fs.nx * fs.ny) fun p => mask p * smooth fs (aposize * π / 180) m p)

open Classical in
/-- `nmt_apodize_mask_flat` (src/nmt_mask_flat.c:148-172). -/
noncomputable def nmtApodizeFlat (smooth : FlatInfo → ℝ → (ℕ → ℝ) → ℕ → ℝ) (fs : FlatInfo) (mask : ℕ → ℝ)
    (aposize : ℝ) (apotype : String) (order : List ℕ) : Outcome (ℕ → ℝ) :=
  if aposize < 0 then .raises .runtime
  else if aposize = 0 then .ok (tab (fs.nx * fs.ny) mask)
  else if apotype = "C1" then apodizeFlatCX fs mask aposize false order
  else if apotype = "C2" then apodizeFlatCX fs mask aposize true order
  else if apotype = "Smooth" then apodizeFlatSmooth smooth fs mask aposize order
  else .raises .runtime

open Classical in
/-- `mask_apodization_flat` (pymaster/utils.py:549-573) with `apomask_flat` (pymaster/namaster.i:371-381), for an array with
`ndim` axes, and `ny` rows of `nx` numbers if there are two. An array without rows has no first row (`mask_in[0]`). -/
noncomputable def maskApodizationFlat (smooth : FlatInfo → ℝ → (ℕ → ℝ) → ℕ → ℝ) (ndim : ℕ) (fs : FlatInfo) (mask : ℕ → ℝ)
    (aposize : ℝ) (apotype : String) (order : List ℕ) : Outcome (ℕ → ℝ) :=
  if ndim ≠ 2 then .raises .value
  else if fs.ny = 0 then .raises .value
  else if ¬ fs.lx > 0 then .raises .runtime
  else if ¬ fs.ly > 0 then .raises .runtime
  else nmtApodizeFlat smooth fs mask aposize apotype order

end NaMaster
