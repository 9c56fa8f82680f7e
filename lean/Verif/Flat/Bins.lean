import Verif.Common
import Mathlib.Algebra.Order.Field.Basic
import Mathlib.Data.List.Basic

/-!
# Model of the flat-sky bandpowers

Models `src/nmt_bins_flat.c`, the linear interpolation `nmt_k_function` (src/nmt_field_flat.c:4-34),
`NmtBinFlat` (pymaster/bins.py:309-406) and its wrappers `bins_flat_create_py`, `bin_cl_flat` and
`unbin_cl_flat` (pymaster/namaster.i:150-156,176-194,216-235). Floating-point numbers are elements
of a linearly ordered field.
-/

set_option linter.unusedSectionVars false

namespace NaMaster

variable {K : Type*} [Field K] [LinearOrder K] [IsStrictOrderedRing K]

/-- `nmt_binning_scheme_flat` (include/namaster.h): the number of bands and the two lists of edges. -/
structure FlatBins (K : Type*) where
  nBands : ℕ
  ell0 : ℕ → K
  ellf : ℕ → K

/-- `NmtBinFlat(l0, lf)` (pymaster/bins.py:325-327, pymaster/namaster.i:150-156,
src/nmt_bins_flat.c:59-69): the only check is that both lists have the same length. -/
def flatBinsCreate (l0 lf : List K) : Outcome (FlatBins K) :=
  if l0.length = lf.length then
    .ok ⟨l0.length, fun i => l0.getD i 0, fun i => lf.getD i 0⟩
  else .raises .runtime

/-- `nmt_bins_flat_constant` (src/nmt_bins_flat.c:41-57). `nband` is the value of `(int)((lmax-1)/nlb)`. -/
def flatBinsConstant (nlb : ℤ) (nband : ℕ) : FlatBins K :=
  ⟨nband, tab nband fun ii : ℕ => ((2 + nlb * ii : ℤ) : K), tab nband fun ii : ℕ => ((2 + nlb * (ii + 1) : ℤ) : K)⟩

/-- The loop running backwards in `nmt_bins_flat_search_fast` (src/nmt_bins_flat.c:10-17). The argument is
`ilback + 1`, which is the number of bands still to be looked at. -/
def searchBack (b : FlatBins K) (l : K) : ℕ → ℤ
  | 0 => -1
  | i + 1 => if l < b.ell0 i then searchBack b l i else i

/-- The loop running forwards in `nmt_bins_flat_search_fast` (src/nmt_bins_flat.c:20-27). The arguments are the number
of bands still to be looked at, `n_bands - ilback`, and `ilback`. -/
def searchForward (b : FlatBins K) (l : K) : ℕ → ℕ → ℤ
  | 0, _ => -1
  | k + 1, i => if b.ellf i ≤ l then searchForward b l k (i + 1) else i

/-- `nmt_bins_flat_search_fast` (src/nmt_bins_flat.c:4-32), started from the result `il` of the previous look-up. Reading
an edge of a band that does not exist is undefined. -/
def searchFast (b : FlatBins K) (l : K) (il : ℤ) : Outcome ℤ :=
  let i := il.toNat
  if b.nBands ≤ i then .crash
  else if l < b.ell0 i then .ok (searchBack b l i)
  else if b.ellf i ≤ l then .ok (searchForward b l (b.nBands - (i + 1)) (i + 1))
  else .ok i

/-- A loop of look-ups which hands the result of each one to the next, as in src/nmt_bins_flat.c:97-99,
src/flatsky_utils.c:388-415 and src/nmt_master_flat.c:165-194: the list of the results. -/
def searchLoop (b : FlatBins K) : ℤ → List K → Outcome (List ℤ)
  | _, [] => .ok []
  | il, l :: ls => (searchFast b l il).bind fun r => (searchLoop b r ls).bind fun rs => .ok (r :: rs)

/-- One row of `nmt_unbin_cls_flat` (src/nmt_bins_flat.c:96-105) for the multipoles `larr`. -/
def unbinRowFlat (b : FlatBins K) (cls : ℕ → K) (larr : List K) : Outcome (List K) :=
  (searchLoop b 0 larr).bind fun ibs => .ok (ibs.map fun ib => if 0 ≤ ib then cls ib.toNat else -999)

/-- `NmtBinFlat.unbin_cell` for a one-dimensional array (pymaster/bins.py:381-406, pymaster/namaster.i:216-235). -/
def unbinCellFlat (b : FlatBins K) (cls larr : List K) : Outcome (List K) :=
  if cls.length ≠ b.nBands then .raises .value
  else unbinRowFlat b (fun i => cls.getD i 0) larr

/-- `gsl_interp_linear` through the points, for a value between the first and the last abscissa: the segment used is
the one containing the value. -/
def interpLin : List (K × K) → K → K
  | [], _ => 0
  | [p], _ => p.2
  | p :: q :: ps, x => if x < q.1 then p.2 + (x - p.1) / (q.1 - p.1) * (q.2 - p.2) else interpLin (q :: ps) x

/-- Evaluation of `nmt_k_function` (src/nmt_field_flat.c:4-34), not constant: `y0` up to the first abscissa, `yf` from
the last one on, and linear interpolation between. `gsl_spline_alloc` and `gsl_spline_init` call the error handler of
GSL, which by default ends the process, for less than two points and for abscissae that do not increase. -/
def kFunction (pts : List (K × K)) (y0 yf x : K) : Outcome K :=
  match pts with
  | p :: q :: ps =>
    if List.Pairwise (fun a b : K × K => a.1 < b.1) pts then
      .ok (if x ≤ p.1 then y0
        else if ((q :: ps).getLast (by simp)).1 ≤ x then yf
        else interpLin pts x)
    else .crash
  | _ => .crash

/-- One row of `nmt_bin_cls_flat` (src/nmt_bins_flat.c:71-89): the interpolated spectrum at the centre of the band. -/
def binRowFlat (b : FlatBins K) (larr cls : List K) (ib : ℕ) : Outcome K :=
  kFunction (larr.zip cls) (cls.headD 0) (cls.getLastD 0) (1 / 2 * (b.ell0 ib + b.ellf ib))

/-- `NmtBinFlat.bin_cell` for a one-dimensional array (pymaster/bins.py:350-379, pymaster/namaster.i:176-194): band `ib`
of the result. -/
def binCellFlat (b : FlatBins K) (larr cls : List K) (ib : ℕ) : Outcome K :=
  if cls.length ≠ larr.length then .raises .value
  else binRowFlat b larr cls ib

/-- `NmtBinFlat.get_effective_ells` (pymaster/bins.py:343-348, src/nmt_bins_flat.c:108-114). -/
def ellEffFlat (b : FlatBins K) (ib : ℕ) : K := 1 / 2 * (b.ell0 ib + b.ellf ib)

end NaMaster
