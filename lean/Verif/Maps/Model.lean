import Verif.Common
import Mathlib.Algebra.BigOperators.Group.Finset.Basic
import Mathlib.Algebra.BigOperators.Intervals
import Mathlib.Analysis.SpecialFunctions.Trigonometric.Inverse
import Mathlib.Algebra.Order.Floor.Ring

/-!
# Model of curved-sky pixelisations, coefficient tables and global parameters

Models `pymaster/utils.py:42-461`, `pymaster/field.py:349-368`, and the ring bookkeeping of
`src/healpix_extra.c` and of `apomask` in `pymaster/namaster.i`.

Simplifications common to the whole file: floating-point numbers are real numbers; `NaN` and infinities
appear only where stated (`PyNum`).
-/

namespace NaMaster

open Finset

/-! ## HEALPix sizes -/

/-- The loop `while 12*nside*nside != axes[0]: nside *= 2; if nside > 65536: raise ValueError`
of `NmtMapInfo.__init__` (pymaster/utils.py:265-269), entered with the given `nside`.
The argument `fuel` bounds the number of iterations, because a Lean function must terminate; `none` means
that it ran out, which `C31_search_terminates` shows never happens from `nside = 2`. -/
def pySearch (len : ℕ) : ℕ → ℕ → Option (Outcome ℕ)
  | 0, _ => none
  | fuel + 1, nside =>
    if 12 * nside * nside = len then some (.ok nside)
    else if nside * 2 > 65536 then some (.raises .value)
    else pySearch len fuel (nside * 2)

/-- `NmtMapInfo(None, [len])` (pymaster/utils.py:262-270): the search starts at `nside = 2`. -/
def pyNside (len : ℕ) : Option (Outcome ℕ) := pySearch len 17 2

/-- The loop `while(npix_1!=12*nside*nside){asserting(nside<=65536); nside*=2;}` of `apomask`
(pymaster/namaster.i:362-366); a failed `asserting` becomes a python `RuntimeError`. `fuel` as in
`pySearch`. -/
def cSearch (len : ℕ) : ℕ → ℕ → Option (Outcome ℕ)
  | 0, _ => none
  | fuel + 1, nside =>
    if len = 12 * nside * nside then some (.ok nside)
    else if ¬ nside ≤ 65536 then some (.raises .runtime)
    else cSearch len fuel (nside * 2)

/-- `apomask` (pymaster/namaster.i:357-366): the lengths of the input and of the output must agree, the
search starts at `nside = 1`. -/
def apoNside (nldout len : ℕ) : Option (Outcome ℕ) :=
  if nldout = len then cSearch len 18 1 else some (.raises .runtime)

/-! ## HEALPix rings -/

/-- `northrings` of `_SHTInfo.from_nside` (pymaster/utils.py:184-186) for ring `r = 1, …, 4*nside-1`. -/
def northring (nside r : ℕ) : ℕ := if r > 2 * nside then 4 * nside - r else r

/-- `nphi` of `_SHTInfo.from_nside` (pymaster/utils.py:178-197), `i = 0, …, 4*nside-2` (ring `i+1`). -/
def pyNphi (nside i : ℕ) : ℕ :=
  if northring nside (i + 1) < nside then 4 * northring nside (i + 1) else 4 * nside

/-- `offsets` of `_SHTInfo.__init__` (pymaster/utils.py:141-143): `concatenate([[0], cumsum(nphi)[:-1]])`. -/
def pyOffset (nside i : ℕ) : ℕ := ∑ j ∈ range i, pyNphi nside j

/-- `theta` of `_SHTInfo.from_nside` (pymaster/utils.py:188-202). -/
noncomputable def pyTheta (nside i : ℕ) : ℝ :=
  let nr := northring nside (i + 1)
  let npix : ℝ := 12 * nside * nside
  let th : ℝ := if nr < nside then 2 * Real.arcsin (nr / (Real.sqrt 6 * nside))
    else Real.arccos ((2 * nside - nr) * (8 * nside / npix))
  if nr ≠ i + 1 then Real.pi - th else th

/-- `phi0` of `_SHTInfo.from_nside` (pymaster/utils.py:191,198-199). -/
noncomputable def pyPhi0 (nside i : ℕ) : ℝ :=
  let nr := northring nside (i + 1)
  if nr < nside then Real.pi / (4 * nr)
  else if (nr - nside) % 2 = 0 then Real.pi / (4 * nside) else 0

/-- `get_ring_limits` (src/healpix_extra.c:26-53): first and last pixel of ring `iz`. C `long`s are integers
(no overflow: `12*nside*nside` is at most `12*65536^2 < 2^63`). -/
def ringLimits (nside iz : ℤ) : ℤ × ℤ :=
  let npix := 12 * nside * nside
  let ncap := 2 * nside * (nside - 1)
  if nside ≤ iz ∧ iz ≤ 3 * nside then
    let ir := iz - nside + 1
    let ipix1 := ncap + 4 * nside * (ir - 1)
    (ipix1, ipix1 + 4 * nside - 1)
  else if iz < nside then
    let ir := iz
    let ipix1 := 2 * ir * (ir - 1)
    (ipix1, ipix1 + 4 * ir - 1)
  else
    let ir := 4 * nside - iz
    let ipix1 := npix - 2 * ir * (ir + 1)
    (ipix1, ipix1 + 4 * ir - 1)

/-- The first pixel, the last pixel, the number of pixels and `kshift` computed at the start of `he_in_ring`
(src/healpix_extra.c:296-326). C `int`s are integers (no overflow for `nside ≤ 8192`, the largest resolution
whose pixel numbers fit in an `int`). -/
def inRingGeom (nside iz : ℤ) : ℤ × ℤ × ℤ × ℤ :=
  let npix := 12 * nside * nside
  let ncap := 2 * nside * (nside - 1)
  if nside ≤ iz ∧ iz ≤ 3 * nside then
    let ir := iz - nside + 1
    let kshift := ir % 2
    let ipix1 := ncap + 4 * nside * (ir - 1)
    (ipix1, ipix1 + 4 * nside - 1, 4 * nside, kshift)
  else if iz < nside then
    let ir := iz
    let ipix1 := 2 * ir * (ir - 1)
    (ipix1, ipix1 + 4 * ir - 1, 4 * ir, 1)
  else
    let ir := 4 * nside - iz
    let ipix1 := npix - 2 * ir * (ir + 1)
    (ipix1, ipix1 + 4 * ir - 1, 4 * ir, 1)

/-- Height `z` of ring `iz` as computed in `he_query_disc` (src/healpix_extra.c:456-461). -/
noncomputable def ringZ (nside iz : ℕ) : ℝ :=
  if iz < nside then 1 - (iz : ℝ) * iz * (1 / (3 * (nside : ℝ) * nside))
  else if iz ≤ 3 * nside then (2 * (nside : ℝ) - iz) * (2 / (3 * (nside : ℝ)))
  else -1 + (4 * (nside : ℝ) - iz) * (4 * nside - iz) * (1 / (3 * (nside : ℝ) * nside))

/-- C conversion `(int)x`: truncation towards zero. -/
noncomputable def cTrunc (x : ℝ) : ℤ := if 0 ≤ x then ⌊x⌋ else ⌈x⌉

/-- `he_ring_num` (src/healpix_extra.c:6-24). The literal `0.66666666` is kept. -/
noncomputable def heRingNum (nside : ℕ) (z : ℝ) : ℤ :=
  let iring := cTrunc (nside * (2 - 1.5 * z) + 0.5)
  let iring := if z > 0.66666666 then
      let i := cTrunc (nside * Real.sqrt (3 * (1 - z)) + 0.5)
      if i = 0 then 1 else i
    else iring
  if z < -0.66666666 then
    let i := cTrunc (nside * Real.sqrt (3 * (1 + z)) + 0.5)
    4 * nside - (if i = 0 then 1 else i)
  else iring

/-! ## Harmonic coefficient tables -/

/-- `NmtAlmInfo.mstart` (pymaster/utils.py:451-452). -/
def mstart (lmax m : ℕ) : ℕ := m * (2 * lmax + 1 - m) / 2

/-- `NmtAlmInfo.nelem` (pymaster/utils.py:453): `max(mstart) + lmax + 1`. -/
def nelem (lmax : ℕ) : ℕ := (range (lmax + 1)).sup (mstart lmax) + (lmax + 1)

/-! ## CAR maps -/

section
variable {K : Type*}

/-- `_SHTInfo.pad_map` (pymaster/utils.py:205-218) for a CAR map with `nring` rings of `nxShort` pixels: the
result has rings of `nxFull` pixels. When `nxShort > nxFull` the numpy assignment cannot broadcast and raises
`ValueError`; when the map does not have `nring*nxShort` pixels `reshape` raises `ValueError`.
A map is its number of pixels and its values. Only one map is modelled (leading dimensions are independent). -/
def padMap [Zero K] (nring nxShort nxFull : ℕ) (m : ℕ × (ℕ → K)) : Outcome (ℕ × (ℕ → K)) :=
  if m.1 ≠ nring * nxShort then .raises .value
  else if nxShort > nxFull then .raises .value
  else .ok (nring * nxFull, tab (nring * nxFull) fun p =>
    if p % nxFull < nxShort then m.2 (p / nxFull * nxShort + p % nxFull) else 0)

/-- `_SHTInfo.unpad_map` (pymaster/utils.py:220-228). The slice keeps `min nxShort nxFull` columns; `reshape` raises
`ValueError` if the numbers of pixels do not agree. -/
def unpadMap [Zero K] (nring nxShort nxFull : ℕ) (m : ℕ × (ℕ → K)) : Outcome (ℕ × (ℕ → K)) :=
  if m.1 ≠ nring * nxFull then .raises .value
  else if nring * min nxShort nxFull ≠ nring * nxShort then .raises .value
  else .ok (nring * nxShort, tab (nring * nxShort) fun p =>
    m.2 (p / nxShort * nxFull + p % nxShort))

/-- `_SHTInfo.times_weight` (pymaster/utils.py:230-240) for a CAR map with `nx` pixels in each ring; `w` is the
weight of each ring. -/
def timesWeight [Mul K] (nx : ℕ) (w m : ℕ → K) : ℕ → K := fun p => m p * w (p / nx)

/-- `_SHTInfo.dot_map` (pymaster/utils.py:242-243) for a CAR map. -/
def dotMap [AddCommMonoid K] [Mul K] (nring nx : ℕ) (w m1 m2 : ℕ → K) : K :=
  ∑ p ∈ range (nring * nx), timesWeight nx w (fun q => m1 q * m2 q) p

/-- `_SHTInfo.dot_map` (pymaster/utils.py:239-243) for a HEALPix map: the weight is `4π/npix`, here `w`. -/
def dotMapHpx [AddCommMonoid K] [Mul K] (npix : ℕ) (w : K) (m1 m2 : ℕ → K) : K :=
  ∑ p ∈ range npix, m1 p * m2 p * w

/-- `NmtMapInfo.reform_map` (pymaster/utils.py:389-416) for one CAR map of shape `(rows, cols)`: reverses the rows if
`flipTh`, the columns if `flipPh`, and flattens. -/
def reformMap [Zero K] (ny nx : ℕ) (flipTh flipPh : Bool) (rows cols : ℕ) (m : ℕ → ℕ → K) :
    Outcome (ℕ → K) :=
  if rows = ny ∧ cols = nx then
    let m1 : ℕ → ℕ → K := if flipTh then fun i j => m (ny - 1 - i) j else m
    let m2 : ℕ → ℕ → K := if flipPh then fun i j => m1 i (nx - 1 - j) else m1
    .ok (tab (ny * nx) fun p => m2 (p / nx) (p % nx))
  else .raises .value

end

/-! ## Map geometries -/

/-- The part of an astropy `WCS` that is read by `NmtMapInfo` (pymaster/utils.py:287-303). `car` says whether both
axis types end in `CAR`; `cdelt`, `crval`, `crpix` are in degrees and (one-based) pixels. -/
structure Wcs where
  car : Bool
  dRa : ℝ
  dDec : ℝ
  ra0 : ℝ
  dec0 : ℝ
  ix0 : ℝ
  iy0 : ℝ

/-- `wcs_pix2world` with origin 0 (pymaster/utils.py:326-335) for a CAR projection with reference declination on the
equator: linear in both coordinates. astropy (wcslib) is not modelled: this is its documented behaviour for
the only projection accepted, except that wcslib returns right ascensions reduced to a range of 360 degrees
and `NaN` outside the sphere. -/
def Wcs.dec (w : Wcs) (iy : ℝ) : ℝ := w.dec0 + (iy + 1 - w.iy0) * w.dDec
@[inherit_doc Wcs.dec]
def Wcs.ra (w : Wcs) (ix : ℝ) : ℝ := w.ra0 + (ix + 1 - w.ix0) * w.dRa

/-- `np.radians`. -/
noncomputable def radians (x : ℝ) : ℝ := x * (Real.pi / 180)

/-- The attributes stored by `NmtMapInfo.__init__` (pymaster/utils.py:346-360); `nxFull`, `iTheta0`, `nthFull` are those
of its `_SHTInfo` (pymaster/utils.py:150-173). -/
inductive MapInfo where
  | healpix (nside : ℕ)
  | car (ny nx : ℕ) (flipTh flipPh : Bool) (thetaMin thetaMax phi0 dTheta dPhi : ℝ)
      (nxFull : ℤ) (iTheta0 nthFull : ℤ)

/-- `NmtMapInfo.__init__` (pymaster/utils.py:286-344) for CAR maps of shape `(ny, nx)`. Python's `round` is only used in
`|round(x) - x| > 0.01`, where every rounding to a nearest integer gives the same result. With a vanishing `cdelt`
the quotient is infinite and `round` raises `OverflowError` (shown as `Err.value`). -/
noncomputable def carInfo (w : Wcs) (ny nx : ℕ) : Outcome MapInfo :=
  let dth := |radians w.dDec|
  let dph := |radians w.dRa|
  if ¬ w.car then .raises .value
  else if |w.dec0| > 1e-3 then .raises .value
  else if dph = 0 ∨ dth = 0 then .raises .value
  else if |round (2 * Real.pi / dph) - 2 * Real.pi / dph| > 0.01 ∨
      |round (Real.pi / dth) - Real.pi / dth| > 0.01 then .raises .value
  else
    let flipTh : Bool := decide (w.dDec > 0)
    let flipPh : Bool := decide (w.dRa < 0)
    let e0 := w.dec 0
    let e1 := w.dec (ny - 1)
    let thetaMin := radians (90 - max e0 e1)
    let thetaMax := radians (90 - min e0 e1)
    let phi0 := radians (w.ra (if flipPh then nx - 1 else 0))
    if thetaMin < 0 ∨ thetaMax > Real.pi then .raises .value
    else if |nx * w.dRa| > 360 + 0.1 * |w.dRa| then .raises .value
    else .ok (.car ny nx flipTh flipPh thetaMin thetaMax phi0 dth dph
      (cTrunc (2 * Real.pi / dph + 0.5)) (cTrunc (thetaMin / dth + 0.5))
      (cTrunc (Real.pi / dth + 0.5) + 1))

open Classical in
/-- `NmtMapInfo.__eq__` (pymaster/utils.py:362-387). The identity shortcut returns what the comparison of attributes
would (no attribute is `NaN`). -/
noncomputable def MapInfo.eq : MapInfo → MapInfo → Bool
  | .healpix n, .healpix n' => n' = n
  | .healpix _, .car .. => false
  | .car .., .healpix _ => false
  | .car ny nx _ _ a b c d e _ _ _, .car ny' nx' _ _ a' b' c' d' e' _ _ _ =>
    ny * nx = ny' * nx' ∧ nx = nx' ∧ ny = ny' ∧ a = a' ∧ b = b' ∧ c = c' ∧ d = d' ∧ e = e'

/-- `self.minfo != other.minfo` with `None` for catalog fields (pymaster/field.py:362; python compares `None` only
equal to itself). -/
noncomputable def minfoNe : Option MapInfo → Option MapInfo → Bool
  | none, none => false
  | some a, some b => !(a.eq b)
  | _, _ => true

/-- The attributes of a field read by `is_compatible`: geometry and the band limits of its coefficient tables
(`NmtAlmInfo.__eq__` compares `lmax` only, pymaster/utils.py:455-461). -/
structure FieldGeom where
  minfo : Option MapInfo
  lmaxMask : ℕ
  lmax : ℕ

/-- `NmtField.is_compatible` (pymaster/field.py:349-368). -/
noncomputable def isCompatible (f g : FieldGeom) (strict : Bool) : Bool :=
  if strict && minfoNe f.minfo g.minfo then false
  else if f.lmaxMask ≠ g.lmaxMask then false
  else if f.lmax ≠ g.lmax then false
  else true

/-! ## Global parameters -/

/-- A python number, or an argument that cannot be compared with numbers (`other`). -/
inductive PyNum where
  | real (x : ℝ)
  | nan
  | posInf
  | negInf
  | other

/-- `x < b` in python, for a finite `b`. -/
noncomputable def PyNum.lt (x : PyNum) (b : ℝ) : Outcome Bool :=
  match x with
  | .real r => .ok (decide (r < b))
  | .nan => .ok false
  | .posInf => .ok false
  | .negInf => .ok true
  | .other => .raises .type

/-- `x > b` in python, for a finite `b`. -/
noncomputable def PyNum.gt (x : PyNum) (b : ℝ) : Outcome Bool :=
  match x with
  | .real r => .ok (decide (r > b))
  | .nan => .ok false
  | .posInf => .ok true
  | .negInf => .ok false
  | .other => .raises .type

/-- `int(x)` in python: truncates, raises `ValueError` for `NaN` and `OverflowError` for infinities (both shown as
`Err.value`). -/
noncomputable def PyNum.toInt : PyNum → Outcome ℤ
  | .real r => .ok (cTrunc r)
  | .nan => .raises .value
  | .posInf => .raises .value
  | .negInf => .raises .value
  | .other => .raises .type

/-- `NmtParams` (pymaster/utils.py:42-68). -/
structure Params where
  shtCalculator : String
  nIterDefault : ℤ
  nIterMaskDefault : ℤ
  tolPinvDefault : PyNum

/-- `NmtParams.__init__` (pymaster/utils.py:64-68). -/
noncomputable def Params.init (haveDucc : Bool) : Params :=
  ⟨if haveDucc then "ducc" else "healpy", 3, 3, .real 1e-10⟩

/-- A call of one of the three setters. -/
inductive ParamCall where
  | shtCalculator (name : String)
  | nIter (n : PyNum) (mask : Bool)
  | tolPinv (tol : PyNum)

/-- `set_sht_calculator`, `set_n_iter_default`, `set_tol_pinv_default` (pymaster/utils.py:74-118). The result is the
parameters after the call and the exception raised, if any. -/
noncomputable def Params.call (haveDucc : Bool) (p : Params) : ParamCall → Params × Option Err
  | .shtCalculator name =>
    if name ∉ ["ducc", "healpy"] then (p, some .key)
    else if name = "ducc" ∧ ¬ haveDucc then (p, some .value)
    else ({ p with shtCalculator := name }, none)
  | .nIter n mask =>
    match n.lt 0 with
    | .ok true => (p, some .value)
    | .ok false =>
      match n.toInt with
      | .ok i => (if mask then { p with nIterMaskDefault := i } else { p with nIterDefault := i }, none)
      | .raises e => (p, some e)
      | .crash => (p, none)
    | .raises e => (p, some e)
    | .crash => (p, none)
  | .tolPinv tol =>
    match tol.gt 1 with
    | .ok true => (p, some .value)
    | .ok false =>
      match tol.lt 0 with
      | .ok true => (p, some .value)
      | .ok false => ({ p with tolPinvDefault := tol }, none)
      | .raises e => (p, some e)
      | .crash => (p, none)
    | .raises e => (p, some e)
    | .crash => (p, none)

/-- A sequence of calls, exceptions being caught by the user. -/
noncomputable def Params.calls (haveDucc : Bool) (p : Params) (cs : List ParamCall) : Params :=
  cs.foldl (fun q c => (q.call haveDucc c).1) p

end NaMaster
