import Verif.Maps.Model
import Mathlib.Analysis.SpecialFunctions.Complex.Arg

/-!
# Model of the pixel queries and of the curved-sky apodisation

Models `he_in_ring` and `he_query_disc` (src/healpix_extra.c:264-495), `src/nmt_mask.c`, `apomask`
(pymaster/namaster.i:357-369) and `mask_apodization` (pymaster/utils.py:464-546). Floating-point numbers are real numbers.
-/

namespace NaMaster

/-- `nint_he` (src/healpix_extra.c:264-269). -/
noncomputable def cNint (x : ℝ) : ℤ :=
  if x > 0 then cTrunc (x + 0.5) else if x < 0 then cTrunc (x - 0.5) else 0

/-- `modu_he` (src/healpix_extra.c:271-277); C's `%` truncates towards zero. -/
def cModu (a n : ℤ) : ℤ :=
  let moda := Int.tmod a n
  if moda < 0 then moda + n else moda

/-- `x-(int)(x/(2*M_PI))*2*M_PI` (src/healpix_extra.c:301-302). -/
noncomputable def wrapTrunc (x : ℝ) : ℝ := x - cTrunc (x / (2 * Real.pi)) * 2 * Real.pi

/-- The integers `first, first+1, …` (`n` of them), as written by the loops
`for(jj=0;jj<n;jj++) listir[jj]=first+jj` (src/healpix_extra.c:333-334,370-373,380-381); none for negative `n`. -/
def consec (first n : ℤ) : List ℤ := (List.range n.toNat).map fun jj : ℕ => first + (jj : ℤ)

/-- `he_in_ring` (src/healpix_extra.c:279-385), with `conservative=1`: the pixels written to `listir`, which has room
for `cap` of them. `report_error` becomes a python `RuntimeError`. -/
noncomputable def heInRing (nside iz : ℤ) (phi0 dphi : ℝ) (cap : ℤ) : Outcome (List ℤ) :=
  let phiLow := wrapTrunc (phi0 - dphi)
  let phiHi := wrapTrunc (phi0 + dphi)
  let ipix1 := (inRingGeom nside iz).1
  let ipix2 := (inRingGeom nside iz).2.1
  let nr := (inRingGeom nside iz).2.2.1
  let kshift := (inRingGeom nside iz).2.2.2
  if |dphi - Real.pi| < 1e-6 then
    let nir := ipix2 - ipix1 + 1
    if nir > cap then .raises .runtime else .ok (consec ipix1 nir)
  else
    let shift : ℝ := 0.5 * kshift
    let ipLow := cModu (cNint (nr * phiLow / (2 * Real.pi) - shift)) nr
    let ipHi := cModu (cNint (nr * phiHi / (2 * Real.pi) - shift)) nr
    if ipLow > ipHi then
      let ipLow := ipLow + ipix1
      let ipHi := ipHi + ipix1
      let nir1 := ipix2 - ipLow + 1
      let nir2 := ipHi - ipix1 + 1
      if nir1 + nir2 > cap then .raises .runtime
      else .ok (consec ipLow nir1 ++ consec ipix1 nir2)
    else
      let ipLow := ipLow + ipix1
      let ipHi := ipHi + ipix1
      let nir := ipHi - ipLow + 1
      if nir > cap then .raises .runtime else .ok (consec ipLow nir)

/-- `wrap_phi` (src/healpix_extra.c:387-395). The recursion adds or subtracts `2π` until the result is between `0` and
`2π`; the model does so at once. -/
noncomputable def wrapPhi (phi : ℝ) : ℝ :=
  if phi > 2 * Real.pi then phi - 2 * Real.pi * ⌈phi / (2 * Real.pi) - 1⌉
  else if phi < 0 then phi + 2 * Real.pi * ⌈-phi / (2 * Real.pi)⌉
  else phi

/-- Half-width in azimuth of the disc on ring `iz`, or `none` if the ring is skipped (src/healpix_extra.c:456-478). For
a centre on the south pole the C code divides by zero: an infinite or undefined quotient skips the ring if `b>0`
and takes all of it otherwise. -/
noncomputable def discWidth (nside : ℕ) (cth0 phi0 cosang : ℝ) (iz : ℕ) : Option ℝ :=
  let z := ringZ nside iz
  let a := 1 - cth0 * cth0
  let b := cosang - z * cth0
  let c := 1 - z * z
  if cth0 = 1 ∨ a * c = 0 then
    if b > 0 then none else some Real.pi
  else
    let cosdphi := b / Real.sqrt (a * c)
    if |cosdphi| ≤ 1 then some (Real.arccos cosdphi)
    else if Real.cos phi0 < cosdphi then none
    else some Real.pi

/-- The loop over rings of `he_query_disc` (src/healpix_extra.c:453-492); `query iz` is `none` for a skipped ring. -/
def discLoop (query : ℕ → Option (Outcome (List ℤ))) (cap : ℤ) : List ℕ → List ℤ → Outcome (List ℤ)
  | [], acc => .ok acc
  | iz :: rest, acc =>
    match query iz with
    | none => discLoop query cap rest acc
    | some (.ok l) =>
      if cap < (acc.length : ℤ) + l.length then .raises .runtime
      else discLoop query cap rest (acc ++ l)
    | some (.raises e) => .raises e
    | some .crash => .crash

/-- `radius_eff` (src/healpix_extra.c:416-419), `inclusive` being set. -/
noncomputable def radiusEff (nside : ℕ) (radius : ℝ) : ℝ := radius + 1.071 * Real.pi / (4 * nside)

/-- The rings visited by `he_query_disc` (src/healpix_extra.c:427-453). -/
noncomputable def discRings (nside : ℕ) (cth0 reff : ℝ) : List ℕ :=
  let rlat0 := Real.arcsin cth0
  let rlat1 := rlat0 + reff
  let rlat2 := rlat0 - reff
  let zmax := if rlat1 ≥ 0.5 * Real.pi then 1 else Real.sin rlat1
  let irmin := heRingNum nside zmax
  let irmin := if irmin < 2 then 1 else irmin - 1
  let zmin := if rlat2 ≤ -0.5 * Real.pi then -1 else Real.sin rlat2
  let irmax := heRingNum nside zmin
  let irmax : ℤ := if irmax > 4 * nside - 2 then 4 * nside - 1 else irmax + 1
  List.range' irmin.toNat (irmax + 1 - irmin).toNat

/-- `he_query_disc` with `inclusive=1` (src/healpix_extra.c:397-495): the pixels left in `listtot`; `cap` is the value of
`*nlist` on entry. The second half of `listtot` serves as `listir`; that the two halves do not overlap, and all
writes are in range, is `C43_query_writes`. -/
noncomputable def heQueryDisc (nside : ℕ) (cth0 phi radius : ℝ) (cap : ℤ) : Outcome (List ℤ) :=
  let phi0 := wrapPhi phi
  if radius < 0 ∨ radius > Real.pi then .raises .runtime
  else
    let reff := radiusEff nside radius
    let cosang := Real.cos reff
    discLoop (fun iz => (discWidth nside cth0 phi0 cosang iz).map fun dphi => heInRing nside iz phi0 dphi cap)
      cap (discRings nside cth0 reff) []

/-- The indices of `listtot` written by the loop of `he_query_disc` up to its end or to an error
(src/healpix_extra.c:481-491): those of `listir=&listtot[cap]` in `he_in_ring`, then those of the copy. -/
def discTrace (query : ℕ → Option (Outcome (List ℤ))) (cap : ℤ) : List ℕ → ℤ → List ℤ
  | [], _ => []
  | iz :: rest, ilist =>
    match query iz with
    | none => discTrace query cap rest ilist
    | some (.ok l) =>
      consec cap l.length ++
        if cap < ilist + l.length then []
        else consec ilist l.length ++ discTrace query cap rest (ilist + l.length)
    | some _ => []

/-! ## Apodisation -/

/-- Weight function of the C1 and C2 apodisations as a function of `xn` (src/nmt_mask.c:73-76). -/
noncomputable def apoF (c2 : Bool) (xn : ℝ) : ℝ :=
  if c2 then 0.5 * (1 - Real.cos (xn * Real.pi)) else xn - Real.sin (xn * 2 * Real.pi) / (2 * Real.pi)

/-- `1-v0[0]*v1[0]-v0[1]*v1[1]-v0[2]*v1[2]` (src/nmt_mask.c:63). -/
def x2sep (v0 v1 : ℝ × ℝ × ℝ) : ℝ := 1 - v0.1 * v1.1 - v0.2.1 * v1.2.1 - v0.2.2 * v1.2.2

/-- `phiv` (src/nmt_mask.c:34-36): `atan2`, plus `2π` if negative. -/
noncomputable def vecPhi (v : ℝ × ℝ × ℝ) : ℝ :=
  let p := Complex.arg ⟨v.1, v.2.1⟩
  if p < 0 then p + 2 * Real.pi else p

/-- The loop over listed pixels (src/nmt_mask.c:57-66). -/
noncomputable def nearestZero (vec : ℕ → ℝ × ℝ × ℝ) (mask : ℕ → ℝ) (v0 : ℝ × ℝ × ℝ) (l : List ℤ) : ℝ :=
  l.foldl (fun x2dist ip2 =>
    if mask ip2.toNat ≤ 0 then
      let x2 := x2sep v0 (vec ip2.toNat)
      if x2 < x2dist then x2 else x2dist
    else x2dist) 1000

/-- `(int)(4*npix*(1-cos(scale*aporad)))` (src/nmt_mask.c:40,96). -/
noncomputable def lenList (npix : ℕ) (scale aporad : ℝ) : ℤ := cTrunc (4 * npix * (1 - Real.cos (scale * aporad)))

/-- Body of the loop over pixels of `apodize_mask_CX` (src/nmt_mask.c:52-81): new value of `mask_out`. An error reported
in the parallel region jumps out of it, which is undefined; it is shown as `crash`. `vec ip` is the position of
pixel `ip` (`he_pix2vec_ring` calls the HEALPix library, which is not part of the repository). -/
noncomputable def apoStepCX (nside : ℕ) (vec : ℕ → ℝ × ℝ × ℝ) (mask : ℕ → ℝ) (aporad : ℝ) (c2 : Bool) (lenlist0 : ℤ)
    (out : ℕ → ℝ) (ip : ℕ) : Outcome (ℕ → ℝ) :=
  if mask ip > 0 then
    match heQueryDisc nside (vec ip).2.2 (vecPhi (vec ip)) (1.2 * aporad) (lenlist0 / 2) with
    | .ok l =>
      let x2thr := 1 - Real.cos aporad
      let x2dist := nearestZero vec mask (vec ip) l
      if x2dist < x2thr then
        let f := if x2dist ≤ 0 then 0 else apoF c2 (Real.sqrt (x2dist * (1 / x2thr)))
        .ok (Function.update out ip (out ip * f))
      else .ok out
    | _ => .crash
  else .ok out

/-- Loop over the pixels in the given order. The iterations of the parallel loop write different pixels and read
`mask_in` only, so any schedule is a permutation of the pixels. -/
def apoLoop {α : Type*} (step : α → ℕ → Outcome α) : List ℕ → α → Outcome α
  | [], s => .ok s
  | ip :: rest, s => (step s ip).bind (apoLoop step rest)

/-- `apodize_mask_CX` (src/nmt_mask.c:4-88). A list length that does not fit in an `int` is undefined behaviour. -/
noncomputable def apodizeCX (nside : ℕ) (vec : ℕ → ℝ × ℝ × ℝ) (mask : ℕ → ℝ) (aposize : ℝ) (c2 : Bool)
    (order : List ℕ) : Outcome (ℕ → ℝ) :=
  let npix := 12 * nside * nside
  let aporad := aposize * Real.pi / 180
  let lenlist0 := lenList npix 1.2 aporad
  if lenlist0 > 2 ^ 31 - 1 then .crash
  else if lenlist0 < 2 then .raises .runtime
  else apoLoop (apoStepCX nside vec mask aporad c2 lenlist0) order (tab npix mask)

/-- Body of the loop over pixels of `apodize_mask_smooth_binary` (src/nmt_mask.c:107-124). -/
noncomputable def apoStepSmooth (nside : ℕ) (vec : ℕ → ℝ × ℝ × ℝ) (mask : ℕ → ℝ) (aporad : ℝ) (lenlist0 : ℤ)
    (out : ℕ → ℝ) (ip : ℕ) : Outcome (ℕ → ℝ) :=
  if mask ip ≤ 0 then
    match heQueryDisc nside (vec ip).2.2 (vecPhi (vec ip)) (2.5 * aporad) (lenlist0 / 2) with
    | .ok l => .ok (l.foldl (fun o ip2 => Function.update o ip2.toNat (o ip2.toNat * 0)) out)
    | _ => .crash
  else .ok out

/-- `apodize_mask_smooth_binary` (src/nmt_mask.c:90-128). The updates are atomic, so an execution is an interleaving of
them; as every update multiplies by zero, only whole iterations in some order are modelled. -/
noncomputable def apodizeSmooth (nside : ℕ) (vec : ℕ → ℝ × ℝ × ℝ) (mask : ℕ → ℝ) (aposize : ℝ)
    (order : List ℕ) : Outcome (ℕ → ℝ) :=
  let npix := 12 * nside * nside
  let aporad := aposize * Real.pi / 180
  let lenlist0 := lenList npix 2.5 aporad
  if lenlist0 > 2 ^ 31 - 1 then .crash
  else if lenlist0 < 2 then .raises .runtime
  else apoLoop (apoStepSmooth nside vec mask aporad lenlist0) order (tab npix mask)

/-- `nmt_apodize_mask` (src/nmt_mask.c:131-145). -/
noncomputable def nmtApodize (nside : ℕ) (vec : ℕ → ℝ × ℝ × ℝ) (mask : ℕ → ℝ) (aposize : ℝ) (apotype : String)
    (order : List ℕ) : Outcome (ℕ → ℝ) :=
  if aposize < 0 then .raises .runtime
  else if aposize = 0 then .ok (tab (12 * nside * nside) mask)
  else if apotype = "C1" then apodizeCX nside vec mask aposize false order
  else if apotype = "C2" then apodizeCX nside vec mask aposize true order
  else if apotype = "Smooth" then apodizeSmooth nside vec mask aposize order
  else .raises .runtime

/-- `mask_apodization` (pymaster/utils.py:520-546) for a mask of `len` pixels. `vec nside` are the positions of the
pixels, `smooth nside aposize m` is the map `m` smoothed with the Gaussian (harmonic transforms, not modelled). The
pixelisation of the smoothing step is that of python (`pyNside`). -/
noncomputable def maskApodization (vec : ℕ → ℕ → ℝ × ℝ × ℝ) (smooth : ℕ → ℝ → (ℕ → ℝ) → ℕ → ℝ) (len : ℕ) (mask : ℕ → ℝ)
    (aposize : ℝ) (apotype : String) (order : List ℕ) : Outcome (ℕ → ℝ) :=
  if apotype ∉ ["C1", "C2", "Smooth"] then .raises .value
  else
    match apoNside len len with
    | some (.ok nside) =>
      (nmtApodize nside (vec nside) mask aposize apotype order).bind fun m =>
        if apotype ≠ "Smooth" then .ok m
        else
          match pyNside len with
          | some (.ok n) => .ok (tab len fun p => smooth n aposize m p * mask p)
          | some (.raises e) => .raises e
          | _ => .crash
    | some (.raises e) => .raises e
    | _ => .crash

end NaMaster
